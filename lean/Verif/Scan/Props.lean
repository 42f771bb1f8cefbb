/-
C68, C69, C70: words, string literals and the tokens of a source.
-/
import Verif.Scan.Whole
namespace Nature.Scan

/-- The token at the end. -/
def endTok : Tok := ⟨.eof, "EOF".toList⟩

/-! ### C70: sources are split into their tokens -/

/-- C70 (partial: none of the words is one of the eleven of `misread`). A source that is written correctly gives exactly its tokens,
with the statement ends that line breaks stand for. -/
theorem C70_tokens_partial (s : Source) (h : s.Ok) (hw : ∀ g w, (g, .word w) ∈ s.parts → ∀ p ∈ misread, p.1.toList ≠ w) :
    ∃ out, Tokens none s.parts out ∧ scan s.text = .ok (out ++ [endTok]) := by
  obtain ⟨out, h1, h2⟩ := loop_parts h.tail h.comment s.parts s.text.length [] h.parts (by
    intro p hp
    obtain ⟨g, l⟩ := p
    cases l <;> first | exact hw g _ hp | trivial) (Nat.le_refl _)
  refine ⟨out, h1, ?_⟩
  unfold scan
  rw [show loop s.text.length [] s.text = _ from h2]
  simp [Out.bind, endTok]

/-- C70: the scanner ends on every text; it reads past the end only if the text does not end with a line break or has a
raw string. -/
theorem C70_ends_partial (src : List Char) : scan src ≠ .endless ∧
    (src.getLast? = some '\n' → '`' ∉ src → scan src ≠ .past) := by
  obtain ⟨h1, h2⟩ := loop_ends src.length [] src (Nat.le_refl _)
  unfold scan
  cases hl : loop src.length [] src with
  | ok x => simp [Out.bind]
  | err => simp [Out.bind]
  | endless => exact absurd hl h1
  | past =>
    refine ⟨by simp [Out.bind], fun a b _ => ?_⟩
    rcases h2 hl with h | h
    · exact h a
    · exact b h

theorem skip_open : ∀ (s : List Char) (n : Bool), (∀ u v, s ≠ u ++ '*' :: '/' :: v) → skip .block n s = .err := by
  intro s
  induction s with
  | nil => intro n _; rw [skip.eq_def]
  | cons c s ih =>
    intro n h
    have ih' := fun n => ih n (fun u v e => h (c :: u) v (by rw [e]; rfl))
    rw [skip.eq_def]
    dsimp only
    split
    · rename_i hc
      split
      · exact absurd (by rw [hc]; rfl) (h [] _)
      · exact ih' n
    · exact ih' n

/-- C70: a comment that is not closed is reported. -/
theorem C70_open_comment (t : List Char) (h : ∀ u v, '*' :: t ≠ u ++ '*' :: '/' :: v) : scan ('/' :: '*' :: t) = .err := by
  unfold scan
  rw [List.length_cons, loop, show skip .plain false ('/' :: '*' :: t) = .err by
    rw [skip.eq_def]; simp only [Char.reduceEq, or_self, ↓reduceIte]; exact skip_open _ _ h]
  rfl

example : ∀ u v, '*' :: "abc* /".toList ≠ u ++ '*' :: '/' :: v := by
  intro u v e
  have h2 : ('*' :: "abc* /".toList) = ['*', 'a', 'b', 'c', '*', ' ', '/'] := by decide
  rw [h2] at e
  match u, e with
  | [], e => simp at e
  | [_], e => simp at e
  | [_, _], e => simp at e
  | [_, _, _], e => simp at e
  | [_, _, _, _], e => simp at e
  | [_, _, _, _, _], e => simp at e
  | [_, _, _, _, _, _], e => simp at e
  | _ :: _ :: _ :: _ :: _ :: _ :: _ :: _, e => simp at e

/-- What is needed is met: `x = 0x1f // c` and on the next line `f(x)`. -/
def sample : Source where
  parts := [([], .word ['x']), ([.blank ' '], .sym .equal), ([.blank ' '], .based .hex ['1', 'f']),
    ([.blank ' ', .line [' ', 'c']], .word ['f']), ([], .sym .leftParen), ([], .word ['x']), ([], .sym .rightParen)]
  tail := [.newline]
  comment := none

example : sample.text = "x = 0x1f // c\nf(x)\n".toList := by decide
example : scan sample.text = .ok [⟨.ident, ['x']⟩, ⟨.sym .equal, ['=']⟩, ⟨.int, ['3', '1']⟩, ⟨.sym .semicolon, [';']⟩, ⟨.ident, ['f']⟩,
    ⟨.sym .leftParen, ['(']⟩, ⟨.ident, ['x']⟩, ⟨.sym .rightParen, [')']⟩, endTok] := by decide +kernel

theorem sym_ends (x : Sym) {c : Char} {r : List Char} (h1 : ∀ y : Sym, c ∉ y.text.toList) (h2 : c ≠ '/' ∧ c ≠ '*') :
    (Lexeme.sym x).EndsBefore (c :: r) := by
  refine ⟨?_, ?_⟩
  · intro y hy
    by_cases hl : y.text.toList.length ≤ x.text.toList.length
    · exact hl
    · exfalso
      obtain ⟨u, hu⟩ := hy
      have hpos : x.text.toList.length < y.text.toList.length := Nat.lt_of_not_le hl
      have e : (y.text.toList ++ u)[x.text.toList.length]? = (x.text.toList ++ c :: r)[x.text.toList.length]? := by rw [hu]
      rw [List.getElem?_append_left hpos, List.getElem?_append_right (Nat.le_refl _), Nat.sub_self] at e
      exact h1 y (List.mem_of_getElem? e)
  · rintro _ d s e
    simp only [List.cons.injEq] at e
    rw [← e.1]; exact h2

example : sample.Ok ∧ (∀ g w, (g, .word w) ∈ sample.parts → ∀ p ∈ misread, p.1.toList ≠ w) := by
  have wx : ∀ c ∈ ['x'], WordChar c := by intro c hc; rw [← isWord_iff]; revert c; decide
  have wf : ∀ c ∈ ['f'], WordChar c := by intro c hc; rw [← isWord_iff]; revert c; decide
  have stop : ∀ {d : Char} {l : List Char}, isWord d = false → ∀ c s, d :: l = c :: s → ¬ WordChar c := by
    intro d l hd c s e h
    simp only [List.cons.injEq] at e
    rw [← e.1, ← isWord_iff, hd] at h
    cases h
  have first : ∀ {c : Char}, isAlpha c = true → ∃ d r, [c] = d :: r ∧ WordChar d ∧ ¬ DigitChar d :=
    fun {c} h => ⟨c, [], rfl, isAlpha_iff.mp h⟩
  refine ⟨⟨?_, ?_, ?_⟩, ?_⟩
  · refine ⟨by simp, ⟨first (by decide), wx⟩, stop (d := ' ') (by decide), ?_⟩
    refine ⟨?_, trivial, sym_ends (c := ' ') _ (by intro y; cases y <;> decide) (by decide), ?_⟩
    · intro x hx; simp only [List.mem_singleton] at hx; subst hx; exact .inl rfl
    refine ⟨?_, ⟨?_, by decide⟩, ?_, ?_⟩
    · intro x hx; simp only [List.mem_singleton] at hx; subst hx; exact .inl rfl
    · intro c hc
      simp only [List.mem_cons, List.not_mem_nil, or_false] at hc
      rcases hc with rfl | rfl
      · exact ⟨1, by decide, by decide⟩
      · exact ⟨15, by decide, by decide⟩
    · intro c s e
      rw [← test_iff]
      simp only [partsText, gapText, Gap.text, List.flatMap_cons, List.cons_append, List.nil_append, List.cons.injEq] at e
      rw [← e.1]; decide
    refine ⟨?_, ⟨first (by decide), wf⟩, stop (d := '(') (by decide), ?_⟩
    · intro x hx
      simp only [List.mem_cons, List.not_mem_nil, or_false] at hx
      rcases hx with rfl | rfl
      · exact .inl rfl
      · show '\n' ∉ [' ', 'c']; decide
    refine ⟨by simp, trivial, sym_ends (c := 'x') _ (by intro y; cases y <;> decide) (by decide), ?_⟩
    refine ⟨by simp, ⟨first (by decide), wx⟩, stop (d := ')') (by decide), ?_⟩
    exact ⟨by simp, trivial, sym_ends (c := '\n') _ (by intro y; cases y <;> decide) (by decide), trivial⟩
  · intro x hx; simp only [sample, List.mem_singleton] at hx; subst hx; trivial
  · intro t ht; cases ht
  · intro g w hm
    simp only [sample, List.mem_cons, Prod.mk.injEq, Lexeme.word.injEq, List.not_mem_nil, or_false, reduceCtorEq, and_false, false_or] at hm
    rcases hm with ⟨_, rfl⟩ | ⟨_, rfl⟩ | ⟨_, rfl⟩ <;> decide

/-! ### C68: words -/

/-- C68 (partial: without the eleven words of `misread`). A word is the keyword that is written like it, or a name. -/
theorem C68_word_partial (w : List Char) (h : (Lexeme.word w).Ok) (hw : ∀ p ∈ misread, p.1.toList ≠ w) :
    scan w = .ok [⟨wordType w, w⟩, endTok] := by
  obtain ⟨out, h1, h2⟩ := C70_tokens_partial ⟨[([], .word w)], [], none⟩
    ⟨⟨by simp, h, by intro c s e; simp [partsText, tailText, gapText] at e, trivial⟩, by simp, by simp⟩
    (by intro g v hv; simp only [List.mem_singleton, Prod.mk.injEq, Lexeme.word.injEq] at hv; rw [hv.2]; exact hw)
  rw [show (⟨[([], .word w)], [], none⟩ : Source).text = w by simp [Source.text, partsText, tailText, gapText, Lexeme.text]] at h2
  rw [h2]
  cases h1 with
  | plain ht _ hr => cases hr; cases ht; rfl

/-- C68: the keywords are these and no others, apart from `misread`. -/
theorem C68_keywords (w : List Char) (k : Kw) :
    keyword w = some k ↔ (∃ p ∈ keywords, p.1.toList = w ∧ p.2 = k) ∨ (∃ p ∈ misread, p.1.toList = w ∧ p.2 = k) := by
  rw [keyword_iff, table]
  simp only [List.map_append, List.mem_append, List.mem_map, Prod.mk.injEq]

/-- C68 (counterexample): these eleven words are names, but they are read as keywords: `v8` as `u8`, `eor` as `for`. -/
theorem C68_counterexample : ∀ p ∈ misread, wordType p.1.toList = .ident ∧ (∀ c ∈ p.1.toList, isWord c = true) ∧
    scan p.1.toList = .ok [⟨.kw p.2, p.1.toList⟩, endTok] := by decide +kernel

example : scan "uint".toList = .ok [⟨.kw .kUint, "uint".toList⟩, endTok] := by decide +kernel
example : (Lexeme.word "union".toList).Ok ∧ ∀ p ∈ misread, p.1.toList ≠ "union".toList :=
  ⟨⟨⟨'u', "nion".toList, by decide, isAlpha_iff.mp (by decide)⟩, by
    intro c hc; rw [← isWord_iff]; revert c; decide⟩, by decide⟩

/-! ### C69: string literals -/

/-- C69: a string literal gives what its elements stand for. -/
theorem C69_string (q : Char) (es : List Elem) (h : (Lexeme.str q es).Ok) :
    ∃ w, es.map (Elem.value q) = w.map some ∧ scan (Lexeme.str q es).text = .ok [⟨.str, w⟩, endTok] := by
  obtain ⟨out, h1, h2⟩ := C70_tokens_partial ⟨[([], .str q es)], [], none⟩ ⟨⟨by simp, h, trivial, trivial⟩, by simp, by simp⟩
    (by intro g v hv; simp at hv)
  rw [show (⟨[([], .str q es)], [], none⟩ : Source).text = (Lexeme.str q es).text by
    simp [Source.text, partsText, tailText, gapText]] at h2
  rw [h2]
  cases h1 with
  | plain ht _ hr =>
    rename_i t ts _
    cases hr
    obtain ⟨ty, w⟩ := t
    obtain ⟨e1, e2⟩ := ht
    simp only at e1 e2
    subst e1
    exact ⟨w, e2, rfl⟩

/-- Two hexadecimal digits for a byte. -/
def hexElem (n : Nat) : Elem := .hex ((hexes.getD (n / 16) ('0', 0)).1) ((hexes.getD (n % 16) ('0', 0)).1)

theorem hexElem_value : ∀ n, n < 256 → Elem.value '"' (hexElem n) = some (Char.ofNat n) := by decide +kernel

/-- C69: every text of bytes can be written. -/
theorem C69_all (w : List Char) (h : ∀ c ∈ w, c.toNat < 256) :
    ∃ es, (Lexeme.str '"' es).Ok ∧ scan (Lexeme.str '"' es).text = .ok [⟨.str, w⟩, endTok] := by
  have hv : (w.map fun c => hexElem c.toNat).map (Elem.value '"') = w.map some := by
    rw [List.map_map]
    apply List.map_congr_left
    intro c hc
    simp only [Function.comp_apply]
    rw [hexElem_value _ (h c hc), Char.ofNat_toNat]
  have hok : (Lexeme.str '"' (w.map fun c => hexElem c.toNat)).Ok := by
    refine ⟨.inl rfl, ?_⟩
    intro e he
    obtain ⟨c, hc, rfl⟩ := List.mem_map.mp he
    rw [hexElem_value _ (h c hc)]; simp
  obtain ⟨w', h1, h2⟩ := C69_string '"' _ hok
  refine ⟨_, hok, ?_⟩
  have : w' = w := by
    have e := h1.symm.trans hv
    exact List.map_inj_right (fun a b h => Option.some.inj h) |>.mp e
  rw [← this]; rw [this] at h2 ⊢; exact h2

example : (Lexeme.str '\'' [.char 'a', .short 'n', .hex '4' '1', .char '"']).Ok := by
  refine ⟨.inr (.inl rfl), ?_⟩; decide
example : scan "'a\\n\\x41\"'".toList = .ok [⟨.str, "a\nA\"".toList⟩, endTok] := by decide +kernel

/-- C69: a line break in a string that is not raw is an error, never a part of it. -/
theorem C69_break (q : Char) (hq : q = '"' ∨ q = '\'') (es : List Elem) (h : ∀ e ∈ es, e.value q ≠ none) (r : List Char) :
    scan (q :: (es.flatMap Elem.text ++ '\n' :: r)) = .err := by
  have hl : ∀ (es : List Elem) (buf : List Char), (∀ e ∈ es, e.value q ≠ none) →
      stringLoop q (es.flatMap Elem.text ++ '\n' :: r) buf = .err := by
    have hq1 : q ≠ '`' := by rcases hq with h | h <;> rw [h] <;> decide
    have hq2 : q ≠ '\\' := by rcases hq with h | h <;> rw [h] <;> decide
    have hq3 : '\n' ≠ q := by rcases hq with h | h <;> rw [h] <;> decide
    intro es
    induction es with
    | nil =>
      intro buf _
      rw [List.flatMap_nil, List.nil_append, stringLoop.eq_def]
      simp [hq3, hq1]
    | cons e es ih =>
      intro buf h
      have he := h e (by simp)
      have ih' := fun buf => ih buf (fun x hx => h x (by simp [hx]))
      rw [List.flatMap_cons, List.append_assoc]
      cases e with
      | char c =>
        simp only [Elem.value] at he
        have hc : ¬ (c = q ∨ (q ≠ '`' ∧ (c = '\n' ∨ c = '\\'))) := by
          intro x; rw [if_pos x] at he; exact he rfl
        simp only [not_or, not_and] at hc
        obtain ⟨c1, c2⟩ := hc
        obtain ⟨c3, c4⟩ := c2 hq1
        simp only [Elem.text, List.cons_append, List.nil_append]
        rw [stringLoop.eq_def]
        dsimp only
        rw [if_neg c1, if_neg (fun x => c3 x.2), if_neg (fun x => c4 x.2)]
        exact ih' _
      | short c =>
        simp only [Elem.value, if_neg hq1] at he
        cases hf : shorts.find? (fun x => x.1 == c) with
        | none => rw [hf] at he; exact absurd rfl he
        | some p =>
          have hc : p.1 = c := by simpa using List.find?_some hf
          obtain ⟨s1, s2⟩ := shorts_spec p (List.mem_of_find?_eq_some hf)
          rw [hc] at s1 s2
          simp only [Elem.text, List.cons_append, List.nil_append]
          rw [stringLoop_short hq1 hq2 s1 s2]
          exact ih' _
      | hex a b =>
        simp only [Elem.value, if_neg hq1] at he
        cases ha : hexOf a with
        | none => simp [ha] at he
        | some x =>
          cases hb : hexOf b with
          | none => simp [ha, hb] at he
          | some y =>
            simp only [Elem.text, List.cons_append, List.nil_append]
            rw [stringLoop_hex hq1 hq2 (hexOf_spec ha).1 (hexOf_spec hb).1]
            exact ih' _
  unfold scan
  rw [List.length_cons, loop]
  have hk : skip .plain false (q :: (es.flatMap Elem.text ++ '\n' :: r)) = .ok (false, q :: (es.flatMap Elem.text ++ '\n' :: r)) := by
    rcases hq with h | h <;> rw [h, skip.eq_def] <;> simp
  rw [hk]
  simp only [Out.bind]
  rw [if_neg (by simp)]
  have hi : item (([] : List Tok).head?.map (·.ty)) (q :: (es.flatMap Elem.text ++ '\n' :: r)) = .err := by
    have hs := hl es [] h
    rcases hq with h | h <;> subst h <;> rw [item] <;>
      rw [if_neg (by decide), if_neg (by decide), if_neg (by decide), if_neg (by decide), if_pos (by decide), hs] <;> rfl
  rw [hi]

example : scan "\"a\nb\"".toList = .err := by decide +kernel

/-- C69 (counterexample): a string without its end at the end of the text: the scanner goes on reading after the text. -/
theorem C69_counterexample : scan "\"abc".toList = .past ∧ scan "`abc\n".toList = .past := by decide +kernel

end Nature.Scan
