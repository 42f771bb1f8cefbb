import Verif.Fmt.Show
import Verif.Fmt.ScanRun
/-
C52 (integers as text), C53 (sprintf), C54 (sscanf).
-/
namespace Nature.Fmt

/-! ### C52 -/

/-- **C52 (partial)**: `itos` writes every signed integer of up to 64 bits in decimal.  Missing: the smallest value of the
type, which is written wrongly (below). -/
theorem C52_itos_partial {N : Nat} (h0 : 0 < N) (hN : N ≤ 64) {v : Int} (h : InRange N v) (hm : v ≠ -2 ^ (N - 1)) :
    Decimal (itos N v) v := by
  have e := itosWith_eq h0 hN h hm true 0 (fun _ => Or.inr rfl)
  rw [if_pos rfl] at e
  rw [itos, e]
  have hd := itos_decimal h0 hN h
  suffices h : ∀ l, pad true 0 l = l by rw [h]; exact hd
  intro l
  rw [pad, if_pos rfl, Nat.zero_sub]
  split
  · rename_i h; cases l with
    | nil => cases h
    | cons c t => have : c = 45 := by simpa using h
                  rw [this]; rfl
  · rfl

/-- -128 + 1 = -127 of i8, and the largest i64. -/
example : itos 8 (-127) = asciiOf "-127" ∧ itos 64 9223372036854775807 = asciiOf "9223372036854775807" := by decide +kernel

/-- Unsigned integers, and the bits of any integer in hexadecimal. -/
theorem C52_unsigned {n : Nat} (hn : n < 2 ^ 64) :
    Numeral 10 (utosWith 10 97 n 48 0) n ∧ Numeral 16 (utosWith 16 97 n 48 0) n ∧ Numeral 16 (utosWith 16 65 n 48 0) n :=
  ⟨utosWith_numeral (by decide) (by decide) (Or.inl rfl) (Nat.lt_of_lt_of_le hn (by decide)) 48,
    utosWith_numeral (by decide) (by decide) (Or.inl rfl) (Nat.lt_of_lt_of_le hn (by decide)) 48,
    utosWith_numeral (by decide) (by decide) (Or.inr rfl) (Nat.lt_of_lt_of_le hn (by decide)) 48⟩

example : utosWith 16 97 3735928559 48 0 = asciiOf "deadbeef" := by decide +kernel

/-- Numbers are told apart by their text: two numerals in the same base are equal only if the numbers are. -/
theorem C52_injective {b : Nat} {l : List Byte} {m n : Nat} (h1 : Numeral b l m) (h2 : Numeral b l n) : m = n := by
  have := h1.val.symm.trans h2.val
  exact Option.some.inj this

/-- **C52 counterexample**: the smallest i8 is written with bytes that are not digits, for the negated value is negative
again. -/
theorem C52_min_counterexample : ∃ l, itos 8 (-128) = l ∧ l = asciiOf "-/.(" ∧ ¬ Decimal l (-128) := by
  refine ⟨_, rfl, by decide +kernel, ?_⟩
  intro h
  have e : itos 8 (-128) = asciiOf "-/.(" := by decide +kernel
  rw [e, Decimal, if_pos (by decide)] at h
  obtain ⟨d, hd, hn⟩ := h
  have : d = asciiOf "/.(" := (List.cons.inj (hd : (45 : Byte) :: asciiOf "/.(" = 45 :: d)).2.symm
  subst this
  exact absurd hn.val (by decide +kernel)

/-- The same for the 64-bit type. -/
theorem C52_min64_counterexample : itos 64 (-9223372036854775808) = asciiOf "-'..--).0-*(+,))+(0(" := by decide +kernel

/-- **C52 counterexample**: `%4d` of zero prints four blanks and no digit. -/
theorem C52_zero_counterexample : itosWith 64 0 32 4 = asciiOf "    " ∧ utosWith 10 97 0 32 4 = asciiOf "    " := by decide +kernel

/-! ### C53 -/

/-- **C53 (partial)**: a format made of literal bytes, `%%` and whole directives prints, from left to right, each byte and
each argument as its directive says.  Missing: the two integers of C52, and formats that end inside a directive. -/
theorem C53_sprintf_partial (F : Floats) {ps : List Piece} (hp : ∀ p ∈ ps, p.OK) {args : List Arg} (ha : ∀ a ∈ args, a.Ok) :
    ∃ out, sprintf F (ps.flatMap Piece.text) args = some out ∧ Printed F ps args out :=
  ⟨_, sprintfGo_ok F ps args _ hp (Nat.le_refl _), expand_printed F ps args ha⟩

/-- No byte of the format is special but `%`. -/
theorem C53_literal (F : Floats) (l : List Byte) (h : 37 ∉ l) (args : List Arg) : sprintf F l args = some l := by
  have e : (l.map Piece.lit).flatMap Piece.text = l := by
    clear h
    induction l with
    | nil => rfl
    | cons c l ih => rw [List.map_cons, List.flatMap_cons, ih]; rfl
  have := sprintfGo_ok F (l.map Piece.lit) args l.length (by
    intro p hp
    obtain ⟨c, hc, rfl⟩ := List.mem_map.1 hp
    exact fun he => h (he ▸ hc)) (by rw [e]; exact Nat.le_refl _)
  rw [e] at this
  rw [sprintf, this]
  congr 1
  clear h e this
  induction l with
  | nil => rfl
  | cons c l ih => rw [List.map_cons, expand, ih]

/-- Text from arguments is not scanned again for directives: `%s` of `%d`. -/
example (F : Floats) : sprintf F (asciiOf "a=%5d, b=%s%%|%q%d") [.int 32 4294967254, .str (asciiOf "%d"), .uint 8 7] =
    some (asciiOf "a=  -42, b=%d%|%?q7") := by rfl

example (F : Floats) : (∀ p ∈ [Piece.lit 97, .dir true [56] none 120, .percent], p.OK) ∧
    [Piece.lit 97, .dir true [56] none 120, .percent].flatMap Piece.text = asciiOf "a%08x%%" ∧
    sprintf F (asciiOf "a%08x%%") [.int 16 65535] = some (asciiOf "a0000ffff%") := by
  refine ⟨?_, rfl, rfl⟩
  intro p hp
  simp only [List.mem_cons, List.not_mem_nil, or_false] at hp
  rcases hp with rfl | rfl | rfl
  · exact (by decide : (97 : Byte) ≠ 37)
  · exact ⟨by decide, by decide, (fun p h => by cases h), by decide, by decide, by decide⟩
  · trivial

/-- **C53 counterexample**: a format that ends after the width, or after the dot, reads beyond its end; one that ends
after the `%` drops it. -/
theorem C53_end_counterexample (F : Floats) (args : List Arg) : sprintf F (asciiOf "%5") args = none ∧
    sprintf F (asciiOf "%0") args = none ∧ sprintf F (asciiOf "%5.") args = none ∧ sprintf F (asciiOf "5%") args = some (asciiOf "5") :=
  ⟨rfl, rfl, rfl, rfl⟩

/-- **C53 counterexample**: widths wrap at 256: `%300d` pads to 44. -/
theorem C53_width_counterexample (F : Floats) : ∃ out, sprintf F (asciiOf "%300d") [.uint 64 7] = some out ∧ out.length = 44 :=
  ⟨_, rfl, rfl⟩

/-! ### C54 -/

/-- **C54**: a text laid out as separators and items is read back whole by a format with the same separators and a
directive for each item: all items are counted and every one is stored with its value. -/
theorem C54_sscanf_partial (F : ScanF) {l : List Seg} (h : WF l) :
    sscanf F (textOf l) (formatOf l) (l.map (·.item.ptr)) = (l.length, l.map fun s => some s.item.val) :=
  scanGo_segs F l h _ (Nat.le_refl _)

/-- `x=-128, ff` and a word, into an i8, a u16 and a string. -/
example (F : ScanF) : let l : List Seg := [⟨asciiOf "x=", .dec 8 (-128), asciiOf "-128"⟩, ⟨asciiOf ", ", .hex 16 255, asciiOf "Ff"⟩,
      ⟨asciiOf " ", .word (asciiOf "a%b"), asciiOf "a%b"⟩]
    WF l ∧ textOf l = asciiOf "x=-128, Ff a%b" ∧ formatOf l = asciiOf "x=%d, %x %s" ∧
    sscanf F (textOf l) (formatOf l) (l.map (·.item.ptr)) = (3, [some (.int (-128)), some (.uint 255), some (.str (asciiOf "a%b"))]) := by
  intro l
  suffices hwf : WF l by
    refine ⟨hwf, rfl, rfl, ?_⟩
    rw [C54_sscanf_partial F hwf]
    rfl
  refine ⟨by decide, ⟨by decide, by decide, ⟨by decide, by decide⟩, asciiOf "128", ⟨by decide, by decide⟩, Or.inl ⟨rfl, by decide⟩⟩, ?_,
    by decide, ⟨by decide, by decide, by decide, by decide⟩, ?_, by decide, ⟨by decide, by decide, rfl⟩, Or.inl rfl, trivial⟩
  · intro c hc; injection hc with hc; subst hc; decide
  · intro c hc; injection hc with hc; subst hc; decide

theorem scanGo_count (F : ScanF) : ∀ (n : Nat) (f s : List Byte) (args : List Ptr),
    (scanGo F n f s args).1 = ((scanGo F n f s args).2.filter Option.isSome).length := by
  intro n
  induction n with
  | zero => intro f s args; rfl
  | succ n ih =>
    intro f s args
    rw [scanGo.eq_def]
    dsimp only
    split
    · rfl
    · rfl
    · split
      · split
        · exact ih _ _ _
        · split
          · exact ih _ _ _
          · rfl
      · split
        · split
          · exact ih _ _ _
          · rfl
        · split
          · rfl
          · split
            · rfl
            · split
              · rfl
              · split
                · rfl
                · rename_i v rest _
                  dsimp only
                  rw [ih]
                  cases v with
                  | none => rfl
                  | some v => rfl

/-- **C54**: for every text, format and list of arguments the number returned is the number of arguments stored to. -/
theorem C54_count (F : ScanF) (text format : List Byte) (args : List Ptr) :
    (sscanf F text format args).1 = ((sscanf F text format args).2.filter Option.isSome).length :=
  scanGo_count F _ _ _ _

/-- Values and separators that survive printing and reading. -/
def RT : List (List Byte × Item) → Prop
  | [] => True
  | (sep, it) :: r => 37 ∉ sep ∧
      (match it with
        | .dec N v => 0 < N ∧ N ≤ 64 ∧ InRange N v ∧ v ≠ -2 ^ (N - 1)
        | .udec N n | .hex N n => N ≤ 64 ∧ n < 2 ^ N
        | .word w => w ≠ [] ∧ 32 ∉ w) ∧
      (∀ s2 it2 r2, r = (s2, it2) :: r2 → s2 ≠ [] ∧ it.Stop s2) ∧ RT r

/-- The argument that holds the item: the bits of a signed integer are its value modulo 2^N. -/
def Item.arg : Item → Arg
  | .dec N v => .int N (v % 2 ^ N).toNat
  | .udec N n | .hex N n => .uint N n
  | .word w => .str w

/-- The format with a directive for each item. -/
def formatRT (l : List (List Byte × Item)) : List Byte := l.flatMap fun s => s.1 ++ [37, s.2.verb]

def piecesRT (l : List (List Byte × Item)) : List Piece :=
  l.flatMap fun s => s.1.map Piece.lit ++ [.dir false [] none s.2.verb]

theorem lits_text (l : List Byte) : (l.map Piece.lit).flatMap Piece.text = l := by
  induction l with
  | nil => rfl
  | cons c l ih => rw [List.map_cons, List.flatMap_cons, ih]; rfl

theorem pieces_text (l : List (List Byte × Item)) : (piecesRT l).flatMap Piece.text = formatRT l := by
  induction l with
  | nil => rfl
  | cons s l ih =>
    have e : piecesRT (s :: l) = s.1.map Piece.lit ++ (.dir false [] none s.2.verb :: piecesRT l) := by simp [piecesRT]
    rw [e, List.flatMap_append, lits_text, List.flatMap_cons, ih]
    simp [formatRT, Piece.text, precText]

theorem expand_lits (F : Floats) (l : List Byte) (ps : List Piece) (args : List Arg) :
    expand F (l.map Piece.lit ++ ps) args = l ++ expand F ps args := by
  induction l with
  | nil => rfl
  | cons c l ih => rw [List.map_cons, List.cons_append, expand, ih]; rfl

def Item.shown : Item → List Byte
  | .dec N v => itos N v
  | .udec _ n => utosWith 10 97 n 48 0
  | .hex _ n => utosWith 16 97 n 48 0
  | .word w => w

def segsRT (l : List (List Byte × Item)) : List Seg := l.map fun s => ⟨s.1, s.2, s.2.shown⟩

theorem wrapS_bits {N : Nat} (h0 : 0 < N) {v : Int} (h : InRange N v) : wrapS N ((v % 2 ^ N).toNat : Int) = v := by
  have hpos : (0 : Int) < 2 ^ N := Int.pow_pos (by decide)
  rw [Int.toNat_of_nonneg (Int.emod_nonneg _ (by omega))]
  have : v % 2 ^ N = v + (-(v / 2 ^ N)) * 2 ^ N := by
    have := Int.emod_add_ediv_mul v (2 ^ N)
    rw [Int.neg_mul]; omega
  rw [this, wrapS_add_mul, wrapS_id h0 h]

theorem fmtArg_shown0 (F : Floats) {it : Item} (h : match it with
        | .dec N v => 0 < N ∧ N ≤ 64 ∧ InRange N v ∧ v ≠ -2 ^ (N - 1)
        | .udec N n | .hex N n => N ≤ 64 ∧ n < 2 ^ N
        | .word w => w ≠ [] ∧ 32 ∉ w) : fmtArg F 32 0 6 it.verb it.arg = it.shown := by
  cases it with
  | dec N v =>
    obtain ⟨h0, hN, hr, hm⟩ := h
    show itosWith N (wrapS N ((v % 2 ^ N).toNat : Int)) 32 0 = itosWith N v 48 0
    rw [wrapS_bits h0 hr]
    have e1 := itosWith_eq h0 hN hr hm false 0 (fun _ => Or.inr rfl)
    have e2 := itosWith_eq h0 hN hr hm true 0 (fun _ => Or.inr rfl)
    rw [if_neg (by decide)] at e1
    rw [if_pos rfl] at e2
    rw [e1, e2]
    generalize (if v < 0 then _ else _ : List Byte) = l
    rw [pad, pad, if_neg (by decide), if_pos rfl, Nat.zero_sub]
    split
    · rename_i h; cases l with
      | nil => cases h
      | cons c t => have : c = 45 := by simpa using h
                    rw [this]; rfl
    · rfl
  | udec N n =>
    obtain ⟨hN, hn⟩ := h
    have h10 := (lt16 hN hn).2
    have e1 := utosWith_pad (b := 10) (letter := 97) (by decide) (by decide) (Or.inl rfl) h10 false 0 (fun _ => Or.inr rfl)
    rw [pad_numeral (utosWith_numeral (by decide) (by decide) (Or.inl rfl) h10 48), Nat.zero_sub] at e1
    exact e1
  | hex N n =>
    obtain ⟨hN, hn⟩ := h
    have h10 := (lt16 hN hn).1
    have e1 := utosWith_pad (b := 16) (letter := 97) (by decide) (by decide) (Or.inl rfl) h10 false 0 (fun _ => Or.inr rfl)
    rw [pad_numeral (utosWith_numeral (by decide) (by decide) (Or.inl rfl) h10 48), Nat.zero_sub] at e1
    exact e1
  | word w => rfl

theorem shown_text {it : Item} (h : match it with
        | .dec N v => 0 < N ∧ N ≤ 64 ∧ InRange N v ∧ v ≠ -2 ^ (N - 1)
        | .udec N n | .hex N n => N ≤ 64 ∧ n < 2 ^ N
        | .word w => w ≠ [] ∧ 32 ∉ w) : it.Text it.shown := by
  cases it with
  | dec N v =>
    obtain ⟨h0, hN, hr, hm⟩ := h
    refine ⟨h0, hN, hr, ?_⟩
    have := C52_itos_partial h0 hN hr hm
    rw [Decimal] at this
    by_cases hv : v < 0
    · rw [if_pos hv] at this
      obtain ⟨d, hd, hn⟩ := this
      exact ⟨d, ⟨hn.ne, hn.val⟩, Or.inl ⟨hd, by omega⟩⟩
    · rw [if_neg hv] at this
      exact ⟨_, ⟨this.ne, this.val⟩, Or.inr ⟨Or.inl rfl, by omega⟩⟩
  | udec N n =>
    obtain ⟨hN, hn⟩ := h
    have := utosWith_numeral (b := 10) (letter := 97) (by decide) (by decide) (Or.inl rfl) (lt16 hN hn).2 48
    exact ⟨hN, hn, _, ⟨this.ne, this.val⟩, Or.inl rfl⟩
  | hex N n =>
    obtain ⟨hN, hn⟩ := h
    have := utosWith_numeral (b := 16) (letter := 97) (by decide) (by decide) (Or.inl rfl) (lt16 hN hn).1 48
    exact ⟨hN, hn, this.ne, this.val⟩
  | word w => exact ⟨h.1, h.2, rfl⟩

theorem stop_append {it : Item} {s t : List Byte} (hne : s ≠ []) (h : it.Stop s) : it.Stop (s ++ t) := by
  cases s with
  | nil => exact absurd rfl hne
  | cons c s =>
    cases it with
    | dec N v => exact fun d hd => h d hd
    | udec N v => exact fun d hd => h d hd
    | hex N v => exact fun d hd => h d hd
    | word w =>
      rcases h with h | h
      · cases h
      · exact Or.inr h

theorem rt_wf : ∀ l, RT l → WF (segsRT l) := by
  intro l
  induction l with
  | nil => intro _; trivial
  | cons s r ih =>
    obtain ⟨sep, it⟩ := s
    rintro ⟨h1, h2, h3, h4⟩
    refine ⟨h1, shown_text h2, ?_, ih h4⟩
    cases r with
    | nil =>
      cases it with
      | dec N v => exact fun c hc => by cases hc
      | udec N v => exact fun c hc => by cases hc
      | hex N v => exact fun c hc => by cases hc
      | word w => exact Or.inl rfl
    | cons s2 r =>
      obtain ⟨sep2, it2⟩ := s2
      obtain ⟨hne, hs⟩ := h3 _ _ _ rfl
      have e : textOf (segsRT ((sep2, it2) :: r)) = sep2 ++ (it2.shown ++ textOf (segsRT r)) := by
        simp [textOf, segsRT]
      show it.Stop (textOf (segsRT ((sep2, it2) :: r)))
      rw [e]
      exact stop_append hne hs

theorem rt_print (F : Floats) : ∀ l, RT l → expand F (piecesRT l) (l.map (·.2.arg)) = textOf (segsRT l) := by
  intro l
  induction l with
  | nil => intro _; rfl
  | cons s r ih =>
    obtain ⟨sep, it⟩ := s
    rintro ⟨h1, h2, _, h4⟩
    have e : piecesRT ((sep, it) :: r) = sep.map Piece.lit ++ (.dir false [] none it.verb :: piecesRT r) := by simp [piecesRT]
    have hv : it.verb ∈ ([118, 99, 100, 115, 102, 120, 88] : List Byte) := by cases it <;> (simp only [Item.verb]; decide)
    rw [e, expand_lits, List.map_cons, expand, if_pos hv, ih h4]
    rw [show fmtArg F (if false = true then 48 else 32) (decimalOf [] % 256) (precOf none) it.verb it.arg = it.shown from
      fmtArg_shown0 F h2]
    simp [textOf, segsRT]

theorem rt_ok : ∀ l, RT l → ∀ p ∈ piecesRT l, p.OK := by
  intro l
  induction l with
  | nil => intro _ p hp; cases hp
  | cons s r ih =>
    obtain ⟨sep, it⟩ := s
    rintro ⟨h1, h2, _, h4⟩ p hp
    have e : piecesRT ((sep, it) :: r) = sep.map Piece.lit ++ (.dir false [] none it.verb :: piecesRT r) := by simp [piecesRT]
    rw [e, List.mem_append, List.mem_cons] at hp
    rcases hp with hp | rfl | hp
    · obtain ⟨c, hc, rfl⟩ := List.mem_map.1 hp
      exact fun he => h1 (he ▸ hc)
    · have hv : ¬ (48 ≤ it.verb ∧ it.verb ≤ 57) ∧ it.verb ≠ 37 ∧ it.verb ≠ 46 := by cases it <;> (simp only [Item.verb]; decide)
      exact ⟨by simp, by simp, by simp, hv⟩
    · exact ih h4 p hp

/-- **C54 (partial)**: what `sprintf` prints with a format, `sscanf` reads back with the same format: all items, with
their values.  Items are integers of up to 64 bits (`%d`, `%x`) and words without spaces; separators are not empty between
items and do not start with a digit after a number, and start with a space after a word.  Missing: the smallest signed
value (C52), floats, widths. -/
theorem C54_roundtrip_partial (F : Floats) (G : ScanF) {l : List (List Byte × Item)} (h : RT l) :
    ∃ text, sprintf F (formatRT l) (l.map (·.2.arg)) = some text ∧
      sscanf G text (formatRT l) (l.map (·.2.ptr)) = (l.length, l.map fun s => some s.2.val) := by
  refine ⟨textOf (segsRT l), ?_, ?_⟩
  · have := sprintfGo_ok F (piecesRT l) (l.map (·.2.arg)) _ (rt_ok l h) (Nat.le_refl _)
    rw [rt_print F l h, pieces_text] at this
    exact this
  · have := C54_sscanf_partial G (rt_wf l h)
    have ef : formatOf (segsRT l) = formatRT l := by simp [formatOf, segsRT, formatRT, List.flatMap_map]
    rw [ef] at this
    simpa [segsRT, Function.comp_def] using this

/-- Three items: `%d,%x %s`. -/
example : RT [([], .dec 32 (-7)), (asciiOf ",", .hex 64 (2 ^ 64 - 1)), (asciiOf " ", .word (asciiOf "é%"))] := by
  refine ⟨by decide, ⟨by decide, by decide, ⟨by decide, by decide⟩, by decide⟩, ?_, by decide, ⟨by decide, by decide⟩, ?_, by decide,
    ⟨by decide, by decide⟩, ?_, trivial⟩
  · intro s2 i2 r2 h
    injection h with h _; injection h with h _; subst h
    refine ⟨by decide, ?_⟩
    intro c hc; injection hc with hc; subst hc; decide
  · intro s2 i2 r2 h
    injection h with h _; injection h with h _; subst h
    refine ⟨by decide, ?_⟩
    intro c hc; injection hc with hc; subst hc; decide
  · intro s2 i2 r2 h; cases h

/-- **C54 counterexample**: a number that does not fit the type is stored cut off and counted, `300` into a u8 gives 44. -/
theorem C54_overflow_counterexample :
    sscanf (fun _ _ => none) (asciiOf "300") (asciiOf "%d") [.uint 8] = (1, [some (.uint 44)]) := by decide +kernel

/-- **C54 counterexample**: newlines and tabs do not end a word. -/
theorem C54_word_counterexample (F : ScanF) :
    sscanf F (asciiOf "a\nb") (asciiOf "%s %s") [.str, .str] = (1, [some (.str (asciiOf "a\nb"))]) := rfl

end Nature.Fmt
