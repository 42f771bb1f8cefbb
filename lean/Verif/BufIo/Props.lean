import Verif.BufIo.Lemmas
import Verif.BufIo.Lines
import Verif.BufIo.Writer
/-
C49: the bytes a buffered reader gives out.  C50: reading by lines.  C51: the bytes a buffered writer passes on.
-/
namespace Nature.BufIo
variable {σ : Type}

/-! ### C49 -/

theorem exec_step {S : Src σ} (hS : S.Fair) (op : Op) {x : Reader (σ × List Byte)} (h : WF x) :
    ∃ g o y t, exec (logged S) op x = ((g, o), y) ∧ Step x y t ∧ o ≠ .panic ∧ ((∀ k f, op ≠ .exact k f) → o ≠ .spin) ∧
      (t = g ∨ (op = .line ∧ (t = g ++ [10] ∨ t = g ++ [13, 10]))) := by
  cases op with
  | read k =>
    obtain ⟨o, y, e, hc⟩ := read_step hS h k
    rcases hc with ⟨bs, rfl, _, st, _⟩ | ⟨er, rfl, st⟩
    · exact ⟨bs, _, y, bs, by rw [exec, e], st, by simp, by simp, Or.inl rfl⟩
    · exact ⟨[], _, y, [], by rw [exec, e], st, by simp, by simp, Or.inl rfl⟩
  | byte =>
    obtain ⟨o, y, e, hc⟩ := readByte_step hS h
    rcases hc with ⟨b, rfl, st⟩ | ⟨er, rfl, st⟩
    · exact ⟨[b], _, y, [b], by rw [exec, e], st, by simp, by simp, Or.inl rfl⟩
    · exact ⟨[], _, y, [], by rw [exec, e], st, by simp, by simp, Or.inl rfl⟩
  | «until» d =>
    obtain ⟨ab, y, e, st, _⟩ := readUntil_step hS d h
    exact ⟨view y ab, _, y, view y ab, by rw [exec, e], st, by simp, by simp, Or.inl rfl⟩
  | line =>
    by_cases he : x.eof = true
    · exact ⟨[], _, x, [], by rw [exec, readLine_eof he], Step.refl h, by simp, by simp, Or.inl rfl⟩
    · obtain ⟨ab, y, e, st, _⟩ := readUntil_step hS 10 h
      have hrl : readLine (logged S) x =
          if y.eof ∧ (view y ab).length = 0 then (.throw .eof, y) else (.ok (strip (view y ab)), y) := by
        rw [readLine, if_neg he, e]
      by_cases hz : y.eof ∧ (view y ab).length = 0
      · rw [if_pos hz] at hrl
        rw [List.length_eq_zero_iff.1 hz.2] at st
        exact ⟨[], _, y, [], by rw [exec, hrl], st, by simp, by simp, Or.inl rfl⟩
      · rw [if_neg hz] at hrl
        refine ⟨_, _, y, view y ab, by rw [exec, hrl], st, by simp, by simp, ?_⟩
        obtain ⟨en, h1, h2⟩ := strip_ends (view y ab)
        rcases h2 with rfl | rfl | rfl
        · left; simpa using h1
        · right; exact ⟨rfl, Or.inl h1⟩
        · right; exact ⟨rfl, Or.inr h1⟩
  | exact k f =>
    obtain ⟨bs, o, y, e, st, hp, _⟩ := exactLoop_step hS k f [] h (Nat.zero_le _)
    exact ⟨bs, o, y, bs, by rw [exec, e]; rfl, st, hp, fun hh => absurd rfl (hh k f), Or.inl rfl⟩

theorem run_step {S : Src σ} (hS : S.Fair) : ∀ (ops : List Op) {x : Reader (σ × List Byte)}, WF x →
    ∃ t, Taken ops (run (logged S) ops x).1 t ∧ Step x (run (logged S) ops x).2 t ∧
      ∀ o ∈ (run (logged S) ops x).1, o.2 ≠ .panic := by
  intro ops
  induction ops with
  | nil => intro x h; exact ⟨[], .nil, Step.refl h, by simp [run]⟩
  | cons op ops ih =>
    intro x h
    obtain ⟨g, o, y, t, e, st, hp, _, ht⟩ := exec_step hS op h
    obtain ⟨ts, h1, h2, h3⟩ := ih st.wf
    rw [run, e]
    exact ⟨t ++ ts, .cons op ops g o _ t ts ht h1, st.trans h2, by
      intro o' ho'
      rcases List.mem_cons.1 ho' with rfl | ho'
      · exact hp
      · exact h3 o' ho'⟩

theorem new_wf (s : σ) {B : Nat} (hB : 0 < B) : WF (newReader s B) :=
  ⟨by simpa [newReader] using hB, Nat.le_refl _, Nat.zero_le _⟩

/-- For every underlying reader, whatever chunks and errors it gives, and every sequence of calls on a new buffered
reader: no call panics, and the bytes the calls took, in order, followed by those still unread in the buffer, are
exactly the bytes the underlying reader gave. -/
theorem C49_bytes_partial {S : Src σ} (hS : S.Fair) (s : σ) {B : Nat} (hB : 0 < B) (ops : List Op) :
    let z := run (logged S) ops (newReader (s, []) B)
    (∃ t, Taken ops z.1 t ∧ z.2.rd.2 = t ++ unread z.2) ∧ (∀ o ∈ z.1, o.2 ≠ .panic) := by
  intro z
  obtain ⟨t, h1, h2, h3⟩ := run_step hS ops (new_wf (s, []) hB)
  refine ⟨⟨t, h1, ?_⟩, h3⟩
  have := h2.log [] (by simp [newReader, unread])
  simpa using this

/-- The states a buffered reader can be in. -/
def Reach (S : Src σ) (B : Nat) (x : Reader (σ × List Byte)) : Prop :=
  0 < B ∧ ∃ s ops, x = (run (logged S) ops (newReader (s, []) B)).2

theorem Reach.wf {S : Src σ} (hS : S.Fair) {B : Nat} {x : Reader (σ × List Byte)} (h : Reach S B x) :
    WF x ∧ x.buf.length = B := by
  obtain ⟨hB, s, ops, rfl⟩ := h
  obtain ⟨t, _, h2, _⟩ := run_step hS ops (new_wf (s, []) hB)
  exact ⟨h2.wf, by rw [h2.len]; simp [newReader]⟩

/-- `read` in any state a reader can reach: at most as many bytes as asked for, and at least one unless none was asked
for or the request went straight to the underlying reader. -/
theorem C49_read {S : Src σ} (hS : S.Fair) {B : Nat} {x : Reader (σ × List Byte)} (h : Reach S B x) (k : Nat)
    {bs y} (e : read (logged S) x k = (.ok bs, y)) : bs.length ≤ k ∧ (bs = [] → k = 0 ∨ B ≤ k) := by
  obtain ⟨hw, hb⟩ := h.wf hS
  obtain ⟨o, z, e2, hc⟩ := read_step hS hw k
  rw [e] at e2
  cases e2
  rcases hc with ⟨bs', h1, h2, _, h3⟩ | ⟨_, h1, _⟩
  · cases h1; rw [hb] at h3; exact ⟨h2, h3⟩
  · cases h1

/-- `read_until` in any state a reader can reach: it always returns; what it returns ends at the first delimiter, or
has none because the buffer is full or the input has ended. -/
theorem C49_until {S : Src σ} (hS : S.Fair) {B : Nat} {x : Reader (σ × List Byte)} (h : Reach S B x) (d : Byte) :
    ∃ ab y, readUntil (logged S) x d = (.ok ab, y) ∧
      ((∃ pre, view y ab = pre ++ [d] ∧ d ∉ pre) ∨
        (d ∉ view y ab ∧ ((view y ab).length = B ∨ (y.eof = true ∧ unread y = [])))) := by
  obtain ⟨hw, hb⟩ := h.wf hS
  obtain ⟨ab, y, e, st, hc⟩ := readUntil_step hS d hw
  refine ⟨ab, y, e, ?_⟩
  rw [st.len, hb] at hc
  exact hc

/-- `read_exact` stores no more than was asked for, and when it returns, exactly that. -/
theorem C49_exact {S : Src σ} (hS : S.Fair) {B : Nat} {x : Reader (σ × List Byte)} (h : Reach S B x) (k fuel : Nat)
    {bs o y} (e : exactLoop (logged S) fuel k [] x = (bs, o, y)) : bs.length ≤ k ∧ (o = .ok () → bs.length = k) := by
  obtain ⟨hw, hb⟩ := h.wf hS
  obtain ⟨bs', o', y', e2, _, _, h1, h2⟩ := exactLoop_step hS k fuel [] hw (Nat.zero_le _)
  rw [e] at e2
  cases e2
  exact ⟨h1, h2⟩

/-- A source over a list of results, one per call, cut to the request; the rest of a cut chunk comes next; at the end
of the list it is at EOF. -/
def script : Src (List Rd) where
  read := fun s n =>
    match s with
    | [] => (.eof, [])
    | .data bs :: t => if bs.length ≤ n then (.data bs, t) else (.data (bs.take n), .data (bs.drop n) :: t)
    | o :: t => (o, t)

theorem script_fair : script.Fair := by
  intro s n bs s' e
  match s, e with
  | [], e => simp [script] at e
  | .eof :: t, e => simp [script] at e
  | .fail :: t, e => simp [script] at e
  | .data bs' :: t, e =>
    dsimp only [script] at e
    by_cases h : bs'.length ≤ n
    · rw [if_pos h] at e; cases e; exact h
    · rw [if_neg h] at e; cases e; exact List.length_take_le ..

/-- Chunks "ab\r", "\ncd" and "e" in a buffer of 5 bytes: a line, a byte, three bytes of four. -/
example :
    let z := run (logged script) [.line, .byte, .exact 4 9]
      (newReader ([.data [97, 98, 13], .data [10, 99, 100], .data [101]], []) 5);
    z.1 = [([97, 98], .ok ()), ([99], .ok ()), ([100, 101], .throw .eof)] ∧
      z.2.rd.2 = [97, 98, 13, 10, 99, 100, 101] := by decide +kernel

example : Reach script 5 (run (logged script) [.line, .byte]
    (newReader ([.data [97, 98, 13], .data [10, 99, 100], .data [101]], []) 5)).2 :=
  ⟨by decide, _, _, rfl⟩

/-- The slice `read_until` returns is a window on the reader's own buffer: after another call the same slice shows other
bytes. -/
theorem C49_slice_counterexample :
    ∃ (s : List Rd) (B : Nat) (ab : Nat × Nat) (y : Reader (List Rd × List Byte)) (b : Byte) (z : Reader (List Rd × List Byte)),
      readUntil (logged script) (newReader (s, []) B) 10 = (.ok ab, y) ∧ view y ab = [97, 10] ∧
        readByte (logged script) y = (.ok b, z) ∧ view z ab = [98, 10] := by
  refine ⟨[.data [97, 10], .data [98]], 4, (0, 2), _, 98, _, rfl, ?_, rfl, ?_⟩ <;> decide +kernel

/-- Reading into an empty slice while nothing is buffered throws 'EOF' and makes `read_line` throw 'EOF' from then on,
although the underlying reader has a whole line. -/
theorem C49_empty_counterexample :
    ∃ (s : List Rd) (B : Nat), 0 < B ∧ s = [.data [97, 10]] ∧
      (run (logged script) [.read 0, .line, .line] (newReader (s, []) B)).1 =
        [([], .throw .eof), ([], .throw .eof), ([], .throw .eof)] ∧
      (run (logged script) [.line, .line] (newReader (s, []) B)).1 = [([97], .ok ()), ([], .throw .eof)] := by
  refine ⟨_, 4, by decide, rfl, ?_, ?_⟩ <;> decide +kernel

/-! ### C50 -/

/-- Reading by lines: if the underlying reader gives the bytes `data`, in chunks of whatever sizes, and then stops, and
no line is longer than the buffer, then `read_line`, called `n` times, gives the lines of `data` in order, without their
ends, and then 'EOF' each time. -/
theorem C50_lines_partial {S : Src σ} {s : σ} {data : List Byte} {B : Nat} (hB : 0 < B) (hf : Feeds S 100 s data)
    (hl : ∀ l ∈ splitAfter 10 data, l.length ≤ B) (n : Nat) :
    readLines S n (newReader s B) = ((lines data).map Out.ok ++ List.replicate n (Out.throw .eof)).take n := by
  refine readLines_feeds n ?_ (by simp [newReader]) hl
  exact ⟨new_wf s hB, rfl, data, by simp [unread, newReader], hf⟩

/-- The lines, put back with their ends, are the text: nothing is lost or added by the cutting itself. -/
theorem C50_lines_spec (data : List Byte) : (splitAfter 10 data).flatten = data ∧
    ∀ l ∈ splitAfter 10 data, l ≠ [] ∧ 10 ∉ l.dropLast := by
  induction data with
  | nil => simp [splitAfter]
  | cons b t ih =>
    rw [splitAfter]
    by_cases hb : b = 10
    · rw [if_pos hb]
      refine ⟨by simp [ih.1], fun l hl => ?_⟩
      rcases List.mem_cons.1 hl with rfl | hl
      · simp
      · exact ih.2 l hl
    · rw [if_neg hb]
      cases hs : splitAfter 10 t with
      | nil =>
        rw [hs] at ih
        refine ⟨by simpa using ih.1, fun l hl => ?_⟩
        rw [List.mem_singleton.1 hl]; simp
      | cons p ps =>
        rw [hs] at ih
        refine ⟨by simpa using ih.1, fun l hl => ?_⟩
        rcases List.mem_cons.1 hl with rfl | hl
        · have := ih.2 p (by simp)
          refine ⟨by simp, ?_⟩
          rw [List.dropLast_cons_of_ne_nil this.1]
          simp only [List.mem_cons, not_or]
          exact ⟨fun h => hb h.symm, this.2⟩
        · exact ih.2 l (by simp [hl])

/-- A source that gives its text two bytes at a time. -/
def twos : Src (List Byte) where
  read := fun s n => match s with
    | [] => (.eof, [])
    | _ => (.data (s.take (min n 2)), s.drop (min n 2))

theorem twos_feeds : ∀ n (data : List Byte), data.length ≤ n → Feeds twos 100 data data := by
  intro n
  induction n with
  | zero =>
    intro data h
    have : data = [] := List.length_eq_zero_iff.1 (by omega)
    subst this
    exact .stop 99 _ fun n _ => Or.inl rfl
  | succ n ih =>
    intro data h
    cases data with
    | nil => exact .stop 99 _ fun n _ => Or.inl rfl
    | cons b t =>
      refine .chunk 99 _ _ (fun n => (b :: t).take (min n 2)) (fun n => (b :: t).drop (min n 2))
        (fun n => (b :: t).drop (min n 2)) ?_ ?_
      · intro m hm
        refine ⟨?_, ?_, (List.take_append_drop ..).symm, rfl⟩
        · intro h0
          have := congrArg List.length h0
          simp only [List.length_take, List.length_cons, List.length_nil] at this
          omega
        · rw [List.length_take]; omega
      · intro m hm
        refine ih _ ?_
        rw [List.length_drop, List.length_cons]
        rw [List.length_cons] at h
        omega

/-- "ab\r\n\nc" read two bytes at a time into a buffer of 4 bytes. -/
example : readLines twos 5 (newReader [97, 98, 13, 10, 10, 99] 4) =
    [.ok [97, 98], .ok [], .ok [99], .throw .eof, .throw .eof] := by
  rw [C50_lines_partial (by decide) (twos_feeds _ _ (Nat.le_refl _)) (by decide +kernel)]; decide +kernel

/-- Whatever the size of the buffer, a line that does not fit comes out in pieces, with no sign that it did. -/
theorem C50_long_counterexample (B : Nat) (hB : 0 < B) : ∃ (s : List Rd) (data : List Byte),
    Feeds script 100 s data ∧ lines data = [List.replicate (B + 1) 97] ∧
      (readLine script (newReader s B)).1 = .ok (List.replicate B 97) := by
  refine ⟨[.data (List.replicate B 97), .data [97, 10]], List.replicate B 97 ++ [97, 10], ?_, ?_, ?_⟩
  · have last : Feeds script 100 [] [] := .stop 99 _ fun n _ => Or.inl rfl
    have gen : ∀ m (t : List Rd) (rest : List Byte), Feeds script 100 t rest →
        ∀ bs : List Byte, bs ≠ [] → bs.length ≤ m → Feeds script 100 (.data bs :: t) (bs ++ rest) := by
      intro m
      induction m with
      | zero =>
        intro t rest _ bs hb hl
        exact absurd (List.length_eq_zero_iff.1 (by omega)) hb
      | succ m ih =>
        intro t rest ht bs hb hl
        have hpos : 0 < bs.length := List.length_pos_iff.2 hb
        refine .chunk 99 _ _ (fun n => if bs.length ≤ n then bs else bs.take n)
          (fun n => if bs.length ≤ n then rest else bs.drop n ++ rest)
          (fun n => if bs.length ≤ n then t else .data (bs.drop n) :: t) ?_ ?_
        · intro n hn
          by_cases h : bs.length ≤ n
          · simp only [if_pos h]
            exact ⟨hb, h, trivial, by dsimp only [script]; rw [if_pos h]⟩
          · simp only [if_neg h]
            refine ⟨?_, List.length_take_le .., ?_, by dsimp only [script]; rw [if_neg h]⟩
            · intro h0
              have := congrArg List.length h0
              simp only [List.length_take, List.length_nil] at this
              omega
            · rw [← List.append_assoc, List.take_append_drop]
        · intro n hn
          by_cases h : bs.length ≤ n
          · simp only [if_pos h]; exact ht
          · simp only [if_neg h]
            refine ih t rest ht _ ?_ ?_
            · intro h0
              have := congrArg List.length h0
              simp only [List.length_drop, List.length_nil] at this
              omega
            · rw [List.length_drop]; omega
    have h2 := gen 2 [] [] last [97, 10] (by simp) (by simp)
    exact gen B [.data [97, 10]] [97, 10] h2 (List.replicate B 97)
      (by intro h; have := congrArg List.length h; simp at this; omega) (by simp)
  · have e : List.replicate B (97 : Byte) ++ [97, 10] = List.replicate (B + 1) 97 ++ 10 :: [] := by
      rw [List.replicate_succ', List.append_assoc]; rfl
    rw [e, lines, splitAfter_found _ _ (by simp)]
    show [chomp (List.replicate (B + 1) 97 ++ [10])] = _
    rw [← strip_chomp, strip, if_pos (by simp)]
    dsimp only
    rw [List.dropLast_concat, if_neg]
    rw [List.getLast?_replicate]
    simp
  · have noScan : ∀ n j, scan (List.replicate B (97 : Byte)) 10 j n = none := by
      intro n
      induction n with
      | zero => intro j; rfl
      | succ n ih =>
        intro j
        rw [scan, if_neg, ih]
        rw [List.getElem?_replicate]
        split <;> simp
    have hfill : fill script (newReader [.data (List.replicate B 97), .data [97, 10]] B) =
        (.ok (), ⟨[.data [97, 10]], List.replicate B 97, 0, B, false⟩) := by
      have hcm : compact (newReader [Rd.data (List.replicate B 97), .data [97, 10]] B) =
          newReader [Rd.data (List.replicate B 97), .data [97, 10]] B := rfl
      rw [fill_eq, hcm, if_neg (by simp [newReader]; omega), fillLoop]
      have hr : script.read (newReader [.data (List.replicate B 97), .data [97, 10]] B).rd
          ((newReader [Rd.data (List.replicate B 97), .data [97, 10]] B).buf.length -
            (newReader [Rd.data (List.replicate B 97), .data [97, 10]] B).w) =
          (.data (List.replicate B 97), [.data [97, 10]]) := by
        dsimp only [script, newReader]
        rw [if_pos (by simp)]
      rw [hr]
      dsimp only
      rw [if_pos (by rw [List.length_replicate]; exact hB)]
      simp [newReader]
    have hu : readUntil script (newReader [.data (List.replicate B 97), .data [97, 10]] B) 10 =
        (.ok (0, B), ⟨[.data [97, 10]], List.replicate B 97, B, B, false⟩) := by
      rw [readUntil, untilLoop]
      have h0 : scan (newReader [Rd.data (List.replicate B 97), .data [97, 10]] B).buf 10
          (newReader [Rd.data (List.replicate B 97), .data [97, 10]] B).r
          ((newReader [Rd.data (List.replicate B 97), .data [97, 10]] B).w -
            (newReader [Rd.data (List.replicate B 97), .data [97, 10]] B).r) = none := rfl
      rw [h0]
      dsimp only
      rw [if_neg (by simp), if_neg (by simp [buffered, newReader]; omega), hfill]
      dsimp only
      show untilLoop script 10 ((newReader [Rd.data (List.replicate B 97), .data [97, 10]] B).buf.length + 1) false _ = _
      rw [untilLoop]
      dsimp only
      rw [noScan]
      dsimp only
      rw [if_neg (by simp), if_pos (by simp [buffered])]
      simp
    rw [readLine, if_neg (by simp [newReader]), hu]
    dsimp only
    rw [if_neg (by simp)]
    show Out.ok (strip (((List.replicate B (97 : Byte)).take B).drop 0)) = _
    rw [List.drop_zero, List.take_of_length_le (by simp), strip, if_neg]
    rw [List.getLast?_replicate]
    split <;> simp

/-- An error of the underlying reader that is not the end of its data is reported as the end of the data, and the rest
is lost to `read_line`. -/
theorem C50_error_counterexample : ∃ (s : List Rd) (B : Nat), s = [.data [97, 10], .fail, .data [98, 10]] ∧
    readLines script 3 (newReader s B) = [.ok [97], .throw .eof, .throw .eof] := by
  refine ⟨_, 4, rfl, ?_⟩
  decide +kernel

/-! ### C51 -/

theorem newWriter_good (s : σ) {B : Nat} (hB : 0 < B) : Good (newWriter (s, []) B) [] :=
  ⟨⟨by simpa [newWriter] using hB, Nat.zero_le _⟩, rfl, by simp [newWriter, pending]⟩

/-- For every underlying writer, however few bytes it takes at a time and whenever it fails, and every sequence of calls
on a new buffered writer: either all calls end normally, and the bytes passed on followed by those still buffered are
exactly the bytes given; or from the first call that throws on every call throws, and the bytes passed on are a
beginning of those given to the calls up to and including the one that first threw. -/
theorem C51_bytes_partial {S : Sink σ} (hS : S.Fair) (s : σ) {B : Nat} (hB : 0 < B) {ops : List WOp} {rs : List Bool}
    {z : Writer (σ × List Byte)} (c : WCalls (loggedW S) ops (newWriter (s, []) B) rs z) :
    (rs = List.replicate ops.length true ∧ z.wr.2 ++ z.buf.take z.n = ops.flatMap WOp.bytes ∧ z.n ≤ z.buf.length ∨
      ∃ pre op post, ops = pre ++ op :: post ∧
        rs = List.replicate pre.length true ++ false :: List.replicate post.length false ∧
        z.wr.2 <+: pre.flatMap WOp.bytes ++ op.bytes) := by
  rcases good_calls hS (newWriter_good s hB) c with ⟨h1, h2⟩ | ⟨pre, op, post, h1, h2, h3⟩
  · exact Or.inl ⟨h1, by simpa [pending] using h2.log, h2.wf.le⟩
  · exact Or.inr ⟨pre, op, post, h1, h2, by simpa using h3.log⟩

/-- After a `flush` that ends normally everything given has been passed on, once and in order. -/
theorem C51_flush {S : Sink σ} (hS : S.Fair) (s : σ) {B : Nat} (hB : 0 < B) {ops : List WOp} {rs : List Bool}
    {z : Writer (σ × List Byte)} (c : WCalls (loggedW S) (ops ++ [.flush]) (newWriter (s, []) B) (rs ++ [true]) z) :
    z.wr.2 = ops.flatMap WOp.bytes := by
  have key : ∀ {ops : List WOp} {x : Writer (σ × List Byte)} {rs acc}, Good x acc →
      WCalls (loggedW S) (ops ++ [.flush]) x (rs ++ [true]) z → z.wr.2 = acc ++ ops.flatMap WOp.bytes := by
    intro ops
    induction ops with
    | nil =>
      intro x rs acc G c
      generalize hr : rs ++ [true] = rs2 at c
      cases c with
      | cons op ops x y b rs' z h hc =>
        cases hc
        rcases good_call hS G h with ⟨_, g, hn⟩ | ⟨hf, _⟩
        · have := g.log
          rw [pending, hn rfl] at this
          simpa [WOp.bytes] using this
        · subst hf
          cases rs <;> simp_all
    | cons op ops ih =>
      intro x rs acc G c
      generalize hr : rs ++ [true] = rs2 at c
      cases c with
      | cons op ops x y b rs' z h hc =>
        cases rs with
        | nil =>
          simp only [List.nil_append] at hr
          cases hr
          exfalso
          have : ∀ {ops : List WOp} {x z : Writer (σ × List Byte)} {rs}, WCalls (loggedW S) ops x rs z → rs.length = ops.length := by
            intro ops x z rs c
            induction c with
            | nil => rfl
            | cons _ _ _ _ _ _ _ _ _ ih => simp [ih]
          have := this hc
          simp at this
        | cons r rs =>
          simp only [List.cons_append] at hr
          obtain ⟨rfl, rfl⟩ := List.cons.inj hr
          rcases good_call hS G h with ⟨_, g, hn⟩ | ⟨hf, g⟩
          · rw [ih g hc]; simp [List.append_assoc]
          · have := (bad_calls g.err hc).1
            have hm : true ∈ rs ++ [true] := by simp
            rw [this, List.mem_replicate] at hm
            exact absurd hm.2 (by simp)
  simpa using key (newWriter_good s hB) c

/-- No call panics, in any state a writer can reach. -/
theorem C51_no_panic {S : Sink σ} (hS : S.Fair) (s : σ) {B : Nat} (hB : 0 < B) {ops : List WOp} {rs : List Bool}
    {z : Writer (σ × List Byte)} (c : WCalls (loggedW S) ops (newWriter (s, []) B) rs z) (ff fuel : Nat) (bs : List Byte)
    (b : Byte) : (write (loggedW S) ff fuel z bs).1 ≠ .panic ∧ (writeByte (loggedW S) ff z b).1 ≠ .panic ∧
      (flush (loggedW S) ff z).1 ≠ .panic := by
  have bad : z.err = true → (write (loggedW S) ff fuel z bs).1 ≠ .panic ∧ (writeByte (loggedW S) ff z b).1 ≠ .panic ∧
      (flush (loggedW S) ff z).1 ≠ .panic := by
    intro he
    refine ⟨by rw [write, if_pos he]; simp, ?_, by rw [flush, if_pos he]; simp⟩
    rw [writeByte]; dsimp only; rw [if_pos he]; simp
  rcases good_calls hS (newWriter_good s hB) c with ⟨_, G⟩ | ⟨_, _, _, _, _, B⟩
  · obtain ⟨o1, y1, e1, h1⟩ := write_good hS ff fuel G bs
    obtain ⟨o2, y2, e2, h2⟩ := writeByte_good hS ff G b
    obtain ⟨o3, y3, e3, h3⟩ := flush_good hS ff G
    rw [e1, e2, e3]
    refine ⟨?_, ?_, ?_⟩
    · rcases h1 with ⟨rfl, _⟩ | ⟨rfl, _⟩ | rfl <;> simp
    · rcases h2 with ⟨rfl, _⟩ | ⟨rfl, _⟩ | rfl <;> simp
    · rcases h3 with ⟨rfl, _⟩ | ⟨rfl, _⟩ | rfl <;> simp
  · exact bad B.err

/-- If the underlying writer, given at least a byte, takes at least one or throws, no call goes on for ever: as many
rounds as there are bytes are enough. -/
theorem C51_ends {S : Sink σ} (hF : S.Fair) (hM : S.Moves) {x : Writer σ} (h : WWF x) (bs : List Byte) (b : Byte) :
    (write S x.buf.length bs.length x bs).1 ≠ .spin ∧ (writeByte S x.buf.length x b).1 ≠ .spin ∧
      (flush S x.buf.length x).1 ≠ .spin :=
  ⟨write_ends hF hM h (Nat.le_refl _) bs (Nat.le_refl _), writeByte_ends hF hM h (Nat.le_refl _) b,
    flush_ends hF hM h (Nat.le_refl _)⟩

/-- An underlying writer that takes nothing and does not throw: `flush` goes round for ever. -/
theorem C51_zero_counterexample : ∃ (S : Sink Unit), S.Fair ∧ ∀ fuel,
    (flush S fuel (write S 0 1 (newWriter () 4) [97]).2).1 = .spin := by
  refine ⟨⟨fun _ _ => (.wrote 0, ())⟩, fun s bs k s' e => by cases e; exact Nat.zero_le _, ?_⟩
  have h : (write ⟨fun _ _ => (.wrote 0, ())⟩ 0 1 (newWriter () 4) [97]).2 = ⟨(), [97, 0, 0, 0], 1, false⟩ := rfl
  rw [h]
  intro fuel
  show (flushLoop _ fuel 0 _).1 = _
  have : ∀ fuel, flushLoop ⟨fun _ _ => (.wrote 0, ())⟩ fuel 0 (⟨(), [97, 0, 0, 0], 1, false⟩ : Writer Unit) =
      (.spin, ⟨(), [97, 0, 0, 0], 1, false⟩) := by
    intro fuel
    induction fuel with
    | zero => rfl
    | succ n ih => rw [flushLoop, if_pos (by decide)]; exact ih
  rw [this]

/-- A writer that takes two bytes at a time, and fails at the second call if told to. -/
def pairs : Sink (Option Nat) where
  write := fun s bs =>
    match s with
    | some 0 => (.fail 1, some 0)
    | some (n + 1) => (.wrote (min 2 bs.length), some n)
    | none => (.wrote (min 2 bs.length), none)

theorem pairs_fair : pairs.Fair := by
  intro s bs k s' e
  match s, e with
  | some 0, e => simp [pairs] at e
  | some (n + 1), e => simp [pairs] at e; omega
  | none, e => simp [pairs] at e; omega

example : pairs.Moves := by
  intro s bs k s' hb e
  have := List.length_pos_iff.2 hb
  match s, e with
  | some 0, e => simp [pairs] at e
  | some (n + 1), e => simp [pairs] at e; omega
  | none, e => simp [pairs] at e; omega

/-- Three bytes, four bytes and a byte through a buffer of three. -/
example : ∃ z, WCalls (loggedW pairs) ([.write [1, 2], .byte 3, .write [4, 5, 6, 7]] ++ [.flush]) (newWriter (none, []) 3)
    ([true, true, true] ++ [true]) z ∧ z.wr.2 = [1, 2, 3, 4, 5, 6, 7] := by
  refine ⟨_, .cons _ _ _ _ _ _ _ (.write _ 9 9 _ _ _ rfl) (.cons _ _ _ _ _ _ _ (.byte _ 9 _ _ rfl)
    (.cons _ _ _ _ _ _ _ (.write _ 9 9 _ _ _ rfl) (.cons _ _ _ _ _ _ _ (.flush 9 _ _ rfl) (.nil _)))), ?_⟩
  decide +kernel

/-- The second call of the underlying writer takes a byte and fails. -/
example : ∃ z, WCalls (loggedW pairs) [.write [1, 2], .byte 3, .write [4, 5, 6, 7], .flush] (newWriter (some 1, []) 3)
    [true, true, false, false] z ∧ z.wr.2 = [1, 2, 3] := by
  refine ⟨_, .cons _ _ _ _ _ _ _ (.write _ 9 9 _ _ _ rfl) (.cons _ _ _ _ _ _ _ (.byte _ 9 _ _ rfl)
    (.cons _ _ _ _ _ _ _ (.writeThrow _ 9 9 _ _ _ rfl) (.cons _ _ _ _ _ _ _ (.flushThrow 9 _ _ _ rfl) (.nil _)))), ?_⟩
  decide +kernel

end Nature.BufIo
