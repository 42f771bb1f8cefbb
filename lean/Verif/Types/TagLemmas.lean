import Verif.Types.TagModel
/-
The text of a type determines the type, and the same types have the same text.
-/
set_option linter.unusedSimpArgs false

namespace Nature.Types

/-! ### the text of each kind of type -/

section
variable (H : List Char → Nat)

theorem text_named (n : String) (a : List Ty) (b : Ty) : text H (.named n a b) =
    n.toList ++ dots (hashes H a) := rfl
theorem text_iface (n : String) (a : List Ty) : text H (.iface n a) =
    n.toList ++ dots (hashes H a) := rfl
theorem text_prim (p : Prim) : text H (.prim p) =
    (primText p).toList := rfl
theorem text_allT  : text H (.allT) =
    "all_t".toList := rfl
theorem text_fnT  : text H (.fnT) =
    "fn_t".toList := rfl
theorem text_integerT  : text H (.integerT) =
    "integer_t".toList := rfl
theorem text_floaterT  : text H (.floaterT) =
    "floater_t".toList := rfl
theorem text_ref (t : Ty) : text H (.ref t) =
    "ref".toList ++ '.' :: dec (H (text H t)) := rfl
theorem text_ptr (t : Ty) : text H (.ptr t) =
    "ptr".toList ++ '.' :: dec (H (text H t)) := rfl
theorem text_vec (t : Ty) : text H (.vec t) =
    "vec".toList ++ '.' :: dec (H (text H t)) := rfl
theorem text_chan (t : Ty) : text H (.chan t) =
    "chan".toList ++ '.' :: dec (H (text H t)) := rfl
theorem text_set (t : Ty) : text H (.set t) =
    "set".toList ++ '.' :: dec (H (text H t)) := rfl
theorem text_arr (n : Nat) (t : Ty) : text H (.arr n t) =
    "arr".toList ++ '.' :: dec n ++ '_' :: dec (H (text H t)) := rfl
theorem text_map (k v : Ty) : text H (.map k v) =
    "map".toList ++ '.' :: dec (H (text H k)) ++ '_' :: dec (H (text H v)) := rfl
theorem text_tuple (ts : List Ty) : text H (.tuple ts) =
    "tuple".toList ++ dots (hashes H ts) := rfl
theorem text_struct (ns : List String) (ts : List Ty) : text H (.struct ns ts) =
    "struct".toList ++ fieldsText ns (hashes H ts) := rfl
theorem text_tagged (ns : List String) (ts : List Ty) : text H (.tagged ns ts) =
    "tagged_union".toList ++ tagsText ns (hashes H ts) := rfl
theorem text_union (f : Bool) (ts : List Ty) : text H (.union f ts) =
    "union".toList ++ dots (hashes H ts) := rfl
theorem text_fn (fl : FnFlags) (r : Ty) (ps : List Ty) : text H (.fn fl r ps) =
    (if fl.fx then "fx".toList else "fn".toList) ++ '.' :: dec (H (text H r)) ++ dots (hashes H ps) := rfl
theorem hashes_cons (t : Ty) (ts : List Ty) : hashes H (t :: ts) = H (text H t) :: hashes H ts := rfl

end

/-- Writes out the text of a type. -/
local macro "text_simp" loc:(Lean.Parser.Tactic.location)? : tactic =>
  `(tactic| simp only [text_named, text_iface, text_prim, text_allT, text_fnT, text_integerT, text_floaterT, text_ref,
    text_ptr, text_vec, text_chan, text_set, text_arr, text_map, text_tuple, text_struct, text_tagged, text_union, text_fn] $[$loc]?)

/-! ### splitting lists -/

theorem takeWhile_split {α : Type} {p : α → Bool} {l r : List α} (hl : ∀ c ∈ l, p c = true)
    (hr : ∀ c, r.head? = some c → p c = false) : (l ++ r).takeWhile p = l := by
  induction l with
  | nil =>
    cases r with
    | nil => rfl
    | cons c r => simp [List.takeWhile, hr c rfl]
  | cons c l ih =>
    simp only [List.cons_append, List.takeWhile, hl c (by simp)]
    rw [ih (fun d hd => hl d (by simp [hd]))]

theorem split_eq {α : Type} {p : α → Bool} {l r l' r' : List α} (hl : ∀ c ∈ l, p c = true)
    (hr : ∀ c, r.head? = some c → p c = false) (hl' : ∀ c ∈ l', p c = true)
    (hr' : ∀ c, r'.head? = some c → p c = false) (h : l ++ r = l' ++ r') : l = l' ∧ r = r' := by
  have h1 : l = l' := by
    rw [← takeWhile_split hl hr, ← takeWhile_split hl' hr', h]
  subst h1
  exact ⟨rfl, List.append_cancel_left h⟩

/-! ### decimal numbers -/

theorem digit_toNat : ∀ n, n < 10 → (Char.ofNat (48 + n)).toNat = 48 + n := by decide
theorem digit_char : ∀ n, n < 10 → digitChar (Char.ofNat (48 + n)) = true := by decide

/-- The number that digits stand for. -/
def decVal (l : List Char) : Nat := l.foldl (fun a c => a * 10 + (c.toNat - 48)) 0

theorem decVal_dec (n : Nat) : decVal (dec n) = n := by
  induction n using dec.induct with
  | case1 n h =>
    rw [dec, if_pos h]
    simp [decVal, digit_toNat n h]
  | case2 n h ih =>
    rw [dec, if_neg h]
    simp only [decVal, List.foldl_append, List.foldl_cons, List.foldl_nil] at ih ⊢
    rw [ih, digit_toNat _ (Nat.mod_lt _ (by omega))]
    omega

theorem dec_inj {a b : Nat} (h : dec a = dec b) : a = b := by
  rw [← decVal_dec a, ← decVal_dec b, h]

theorem dec_digits (n : Nat) : ∀ c ∈ dec n, digitChar c = true := by
  induction n using dec.induct with
  | case1 n h =>
    rw [dec, if_pos h]
    simp [digit_char n h]
  | case2 n h ih =>
    rw [dec, if_neg h]
    intro c hc
    simp only [List.mem_append, List.mem_singleton] at hc
    rcases hc with hc | rfl
    · exact ih c hc
    · exact digit_char _ (Nat.mod_lt _ (by omega))

theorem dec_ne_nil (n : Nat) : dec n ≠ [] := by
  rw [dec]
  split <;> simp

theorem digit_not_dot {c : Char} (h : digitChar c = true) : (c != '.') = true := by
  simp only [bne_iff_ne, ne_eq]
  rintro rfl
  exact absurd h (by decide)

theorem dec_not_dot (n : Nat) : ∀ c ∈ dec n, (c != '.') = true := fun c hc =>
  digit_not_dot (dec_digits n c hc)

/-- A decimal number followed by something that does not begin with a digit. -/
theorem dec_split {a b : Nat} {x y : List Char} (hx : ∀ c, x.head? = some c → digitChar c = false)
    (hy : ∀ c, y.head? = some c → digitChar c = false) (h : dec a ++ x = dec b ++ y) :
    a = b ∧ x = y := by
  obtain ⟨h1, h2⟩ := split_eq (dec_digits a) hx (dec_digits b) hy h
  exact ⟨dec_inj h1, h2⟩

theorem dots_head (l : List Nat) : ∀ c, (dots l).head? = some c → digitChar c = false := by
  cases l with
  | nil => simp [dots]
  | cons h l =>
    intro c hc
    simp [dots] at hc
    subst hc
    decide

theorem dots_inj : ∀ {l l' : List Nat}, dots l = dots l' → l = l'
  | [], [], _ => rfl
  | [], _ :: _, h => by simp [dots] at h
  | _ :: _, [], h => by simp [dots] at h
  | a :: l, b :: l', h => by
    simp only [dots, List.cons_append, List.cons.injEq, true_and] at h
    obtain ⟨h1, h2⟩ := dec_split (dots_head l) (dots_head l') h
    rw [h1, dots_inj h2]

theorem dots_concat (l : List Nat) (h : Nat) : dots (l ++ [h]) = dots l ++ '.' :: dec h := by
  induction l with
  | nil => simp [dots]
  | cons a l ih => simp [dots, ih]

/-! ### names -/

/-- What is after the last dot. -/
def lastWord (l : List Char) : List Char := (l.reverse.takeWhile (· != '.')).reverse

theorem lastWord_dec (x : List Char) (n : Nat) : lastWord (x ++ '.' :: dec n) = dec n := by
  unfold lastWord
  have : (x ++ '.' :: dec n).reverse = (dec n).reverse ++ '.' :: x.reverse := by simp
  rw [this, takeWhile_split (by simpa using dec_not_dot n) (by simp), List.reverse_reverse]

/-- The last word of a name does not begin with a digit. -/
def Worded (n : List Char) : Prop := ∃ c cs, lastWord n = c :: cs ∧ digitChar c = false

theorem not_worded_dec {x : List Char} {n : Nat} (h : Worded (x ++ '.' :: dec n)) : False := by
  obtain ⟨c, cs, h1, h2⟩ := h
  rw [lastWord_dec] at h1
  have := dec_digits n c (by rw [h1]; simp)
  rw [this] at h2
  exact absurd h2 (by simp)

theorem name_dots : ∀ (k : Nat) {n n' : List Char} {l l' : List Nat}, l.length = k → Worded n →
    Worded n' → n ++ dots l = n' ++ dots l' → n = n' ∧ l = l' := by
  intro k
  induction k with
  | zero =>
    intro n n' l l' hk hn hn' h
    have : l = [] := List.length_eq_zero_iff.1 hk
    subst this
    rcases List.eq_nil_or_concat l' with rfl | ⟨l', a, rfl⟩
    · simpa [dots] using h
    · exfalso
      rw [List.concat_eq_append, dots_concat, ← List.append_assoc] at h
      simp only [dots, List.append_nil] at h
      rw [h] at hn
      exact not_worded_dec hn
  | succ k ih =>
    intro n n' l l' hk hn hn' h
    rcases List.eq_nil_or_concat l with rfl | ⟨l, a, rfl⟩
    · simp at hk
    rcases List.eq_nil_or_concat l' with rfl | ⟨l', b, rfl⟩
    · exfalso
      rw [List.concat_eq_append, dots_concat, ← List.append_assoc] at h
      simp only [dots, List.append_nil] at h
      rw [← h] at hn'
      exact not_worded_dec hn'
    · rw [List.concat_eq_append, List.concat_eq_append, dots_concat, dots_concat,
        ← List.append_assoc, ← List.append_assoc] at h
      have h' := congrArg List.reverse h
      simp only [List.reverse_append, List.reverse_cons, List.append_assoc, List.singleton_append,
        List.cons_append] at h'
      obtain ⟨h1, h2⟩ := split_eq (p := (· != '.')) (by simpa using dec_not_dot a) (by simp)
        (by simpa using dec_not_dot b) (by simp) h'
      have h1 := dec_inj (List.reverse_inj.1 h1)
      have h2 := (List.cons.inj h2).2
      rw [← List.reverse_append, ← List.reverse_append] at h2
      obtain ⟨h3, h4⟩ := ih (by simpa using hk) hn hn' (List.reverse_inj.1 h2)
      rw [h3, h4, h1]
      simp

theorem typeName_worded {n : String} (h : typeName n = true) : Worded n.toList := by
  unfold typeName at h
  simp only [Bool.and_eq_true] at h
  have h := h.1.1
  unfold Worded lastWord
  split at h
  · simp at h
  · rename_i c cs hc
    exact ⟨c, cs, hc, by simpa using h⟩

/-! ### fields and tags -/

theorem fieldName_spec {n : String} (h : fieldName n = true) :
    ∃ c cs, n.toList = c :: cs ∧ digitChar c = false ∧ ∀ d ∈ n.toList, (d != '.') = true := by
  unfold fieldName at h
  split at h
  · simp at h
  · rename_i c cs hc
    simp only [Bool.and_eq_true, Bool.not_eq_true', List.all_eq_true] at h
    exact ⟨c, cs, hc, h.1, by rw [hc]; exact h.2⟩

theorem fields_head {ns : List String} {hs : List Nat} (hn : ∀ n ∈ ns, fieldName n = true) :
    ∀ c, (fieldsText ns hs).head? = some c → digitChar c = false := by
  cases ns with
  | nil => simp [fieldsText]
  | cons n ns =>
    cases hs with
    | nil => simp [fieldsText]
    | cons h hs =>
      obtain ⟨c, cs, h1, h2, _⟩ := fieldName_spec (hn n (by simp))
      intro d hd
      simp [fieldsText, h1] at hd
      rw [← hd]; exact h2

theorem fields_inj : ∀ {ns ns' : List String} {hs hs' : List Nat}, ns.length = hs.length →
    ns'.length = hs'.length → (∀ n ∈ ns, fieldName n = true) → (∀ n ∈ ns', fieldName n = true) →
    fieldsText ns hs = fieldsText ns' hs' → ns = ns' ∧ hs = hs'
  | [], [], [], [], _, _, _, _, _ => ⟨rfl, rfl⟩
  | [], b :: ns', [], c :: hs', _, _, _, hn', h => by
    simp [fieldsText] at h
  | b :: ns, [], c :: hs, [], _, _, hn, _, h => by
    simp [fieldsText] at h
  | a :: ns, b :: ns', x :: hs, y :: hs', hl, hl', hn, hn', h => by
    obtain ⟨_, _, _, _, ha⟩ := fieldName_spec (hn a (by simp))
    obtain ⟨_, _, _, _, hb⟩ := fieldName_spec (hn' b (by simp))
    simp only [fieldsText, List.append_assoc, List.cons_append] at h
    obtain ⟨h1, h2⟩ := split_eq (p := (· != '.')) ha (by simp) hb (by simp) h
    simp only [List.cons.injEq, true_and] at h2
    have hn1 : ∀ n ∈ ns, fieldName n = true := fun n h => hn n (by simp [h])
    have hn2 : ∀ n ∈ ns', fieldName n = true := fun n h => hn' n (by simp [h])
    obtain ⟨h3, h4⟩ := dec_split (fields_head hn1) (fields_head hn2) h2
    obtain ⟨h5, h6⟩ := fields_inj (by simpa using hl) (by simpa using hl') hn1 hn2 h4
    rw [String.toList_inj.1 h1, h3, h5, h6]
    exact ⟨rfl, rfl⟩

theorem tags_head {ns : List String} {hs : List Nat} :
    ∀ c, (tagsText ns hs).head? = some c → digitChar c = false := by
  cases ns with
  | nil => simp [tagsText]
  | cons n ns =>
    cases hs with
    | nil => simp [tagsText]
    | cons h hs =>
      intro d hd
      simp [tagsText] at hd
      rw [← hd]; decide

theorem tags_inj : ∀ {ns ns' : List String} {hs hs' : List Nat}, ns.length = hs.length →
    ns'.length = hs'.length → (∀ n ∈ ns, fieldName n = true) → (∀ n ∈ ns', fieldName n = true) →
    tagsText ns hs = tagsText ns' hs' → ns = ns' ∧ hs = hs'
  | [], [], [], [], _, _, _, _, _ => ⟨rfl, rfl⟩
  | [], b :: ns', [], c :: hs', _, _, _, hn', h => by
    simp [tagsText] at h
  | b :: ns, [], c :: hs, [], _, _, hn, _, h => by
    simp [tagsText] at h
  | a :: ns, b :: ns', x :: hs, y :: hs', hl, hl', hn, hn', h => by
    obtain ⟨_, _, _, _, ha⟩ := fieldName_spec (hn a (by simp))
    obtain ⟨_, _, _, _, hb⟩ := fieldName_spec (hn' b (by simp))
    simp only [tagsText, List.append_assoc, List.cons_append, List.cons.injEq, true_and] at h
    obtain ⟨h1, h2⟩ := split_eq (p := (· != '.')) ha (by simp) hb (by simp) h
    simp only [List.cons.injEq, true_and] at h2
    have hn1 : ∀ n ∈ ns, fieldName n = true := fun n h => hn n (by simp [h])
    have hn2 : ∀ n ∈ ns', fieldName n = true := fun n h => hn' n (by simp [h])
    obtain ⟨h3, h4⟩ := dec_split tags_head tags_head h2
    obtain ⟨h5, h6⟩ := tags_inj (by simpa using hl) (by simpa using hl') hn1 hn2 h4
    rw [String.toList_inj.1 h1, h3, h5, h6]
    exact ⟨rfl, rfl⟩

/-! ### the kind of a type can be read off its text -/

/-- The kind of a type, from the first word of its text. -/
def decodeWord (w : List Char) : Nat :=
  if w.take 6 == "struct".toList then 1
  else match reservedWords.findIdx? (· == String.ofList w) with
    | some i => i + 2
    | none => 0

/-- The kind of a type. -/
def code : Ty → Nat
  | .named _ _ _ | .iface _ _ => 0
  | .struct _ _ => 1
  | .prim .bool => 2 | .prim .i8 => 3 | .prim .u8 => 4 | .prim .i16 => 5 | .prim .u16 => 6
  | .prim .i32 => 7 | .prim .u32 => 8 | .prim .i64 => 9 | .prim .u64 => 10 | .prim .f32 => 11
  | .prim .f64 => 12 | .prim .string => 13 | .prim .anyptr => 14 | .prim .coroutine => 15
  | .prim .null => 16 | .prim .void => 17 | .prim .any => 18 | .prim .enum => 19
  | .allT => 20 | .fnT => 21 | .integerT => 22 | .floaterT => 23
  | .ptr _ => 24 | .ref _ => 25 | .vec _ => 26 | .set _ => 27 | .chan _ => 28 | .map _ _ => 29
  | .arr _ _ => 30 | .tuple _ => 31
  | .fn fl _ _ => if fl.fx then 33 else 32
  | .tagged _ _ => 34 | .union _ _ => 35
  | .param _ | .stop => 36

theorem firstWord_dots (w : List Char) (l : List Nat) : firstWord (w ++ dots l) = firstWord w := by
  unfold firstWord
  induction w with
  | nil => cases l <;> simp [dots]
  | cons c w ih =>
    simp only [List.cons_append, List.takeWhile]
    split
    · rw [ih]
    · rfl

theorem firstWord_tags (w : List Char) (ns : List String) (l : List Nat) :
    firstWord (w ++ tagsText ns l) = firstWord w := by
  unfold firstWord
  induction w with
  | nil =>
    cases ns <;> cases l <;> simp [tagsText]
  | cons c w ih =>
    simp only [List.cons_append, List.takeWhile]
    split
    · rw [ih]
    · rfl

theorem firstWord_word {w x : List Char} (h : w.all (· != '.') = true) :
    firstWord (w ++ '.' :: x) = w := by
  unfold firstWord
  exact takeWhile_split (by simpa using h) (by simp)

theorem ofs_named {p : Decls} {n : String} {a : List Ty} {b : Ty} :
    Ofs p (.named n a b) ↔ typeName n = true ∧ p.iface n = false ∧ b = p.body n a := Iff.rfl

theorem ofs_iface {p : Decls} {n : String} {a : List Ty} :
    Ofs p (.iface n a) ↔ typeName n = true ∧ p.iface n = true := Iff.rfl

theorem decode_code (H : List Char → Nat) (p : Decls) (t : Ty) (ht : Ofs p t) :
    decodeWord (firstWord (text H t)) = code t := by
  have named : ∀ n : String, typeName n = true → decodeWord (firstWord n.toList) = 0 := by
    intro n hn
    unfold typeName at hn
    simp only [Bool.and_eq_true, Bool.not_eq_true', bne_iff_ne, ne_eq] at hn
    have h1 := hn.1.2
    have h2 := hn.2
    unfold decodeWord
    rw [if_neg (by simpa using h2)]
    have : reservedWords.findIdx? (· == String.ofList (firstWord n.toList)) = none := by
      rw [List.findIdx?_eq_none_iff]
      intro x hx
      simp only [beq_eq_false_iff_ne, ne_eq]
      rintro rfl
      rw [List.contains_eq_any_beq, List.any_eq_false] at h1
      exact h1 _ hx (by simp)
    rw [this]
  cases t with
  | named n a b => text_simp; rw [firstWord_dots]; exact named n (ofs_named.1 ht).1
  | iface n a => text_simp; rw [firstWord_dots]; exact named n (ofs_iface.1 ht).1
  | prim q => text_simp; cases q <;> decide +kernel
  | struct ns ts =>
    text_simp
    have : firstWord ("struct".toList ++ fieldsText ns (hashes H ts)) =
        "struct".toList ++ firstWord (fieldsText ns (hashes H ts)) := by
      simp [firstWord, List.takeWhile]
    rw [this]
    simp [decodeWord, code]
  | tuple ts => text_simp; rw [firstWord_dots]; show _ = 31; decide +kernel
  | union n ts => text_simp; rw [firstWord_dots]; show _ = 35; decide +kernel
  | tagged ns ts => text_simp; rw [firstWord_tags]; show _ = 34; decide +kernel
  | param n => exact ht.elim
  | stop => exact ht.elim
  | allT => text_simp; decide +kernel
  | fnT => text_simp; decide +kernel
  | integerT => text_simp; decide +kernel
  | floaterT => text_simp; decide +kernel
  | ptr t => text_simp; rw [firstWord_word (by decide)]; show _ = 24; decide +kernel
  | ref t => text_simp; rw [firstWord_word (by decide)]; show _ = 25; decide +kernel
  | vec t => text_simp; rw [firstWord_word (by decide)]; show _ = 26; decide +kernel
  | set t => text_simp; rw [firstWord_word (by decide)]; show _ = 27; decide +kernel
  | chan t => text_simp; rw [firstWord_word (by decide)]; show _ = 28; decide +kernel
  | map k v =>
    text_simp; rw [List.append_assoc, List.cons_append, firstWord_word (by decide)]
    show _ = 29; decide +kernel
  | arr n t =>
    text_simp; rw [List.append_assoc, List.cons_append, firstWord_word (by decide)]
    show _ = 30; decide +kernel
  | fn fl r ps =>
    text_simp; rw [List.append_assoc, List.cons_append]
    cases hfx : fl.fx
    · rw [if_neg (by simp), firstWord_word (by decide), code, hfx]; decide +kernel
    · rw [if_pos rfl, firstWord_word (by decide), code, hfx]; decide +kernel

theorem code_eq {H : List Char → Nat} {p : Decls} {t s : Ty} (ht : Ofs p t) (hs : Ofs p s)
    (h : text H t = text H s) : code t = code s := by
  rw [← decode_code H p t ht, ← decode_code H p s hs, h]

/-! ### hashes -/

theorem hashes_map (H : List Char → Nat) (ts : List Ty) : hashes H ts = ts.map (typeHash H) := by
  induction ts with
  | nil => rfl
  | cons t ts ih => simp [hashes_cons, ih, typeHash]

theorem map_inj_on {α β : Type} {f : α → β} : ∀ {l l' : List α}, l.map f = l'.map f →
    (∀ a ∈ l, ∀ b ∈ l', f a = f b → a = b) → l = l'
  | [], [], _, _ => rfl
  | [], _ :: _, h, _ => by simp at h
  | _ :: _, [], h, _ => by simp at h
  | a :: l, b :: l', h, hi => by
    simp only [List.map_cons, List.cons.injEq] at h
    rw [hi a (by simp) b (by simp) h.1,
      map_inj_on h.2 (fun x hx y hy => hi x (by simp [hx]) y (by simp [hy]))]

theorem append_str {w x y : List Char} (h : w ++ x = w ++ y) : x = y := List.append_cancel_left h

theorem append_dot {w x y : List Char} (h : w ++ '.' :: x = w ++ '.' :: y) : x = y :=
  (List.cons.inj (List.append_cancel_left h)).2

theorem dec_under {a b c d : Nat} (h : dec a ++ '_' :: dec b = dec c ++ '_' :: dec d) :
    a = c ∧ b = d := by
  obtain ⟨h1, h2⟩ := dec_split (by intro c hc; simp at hc; subst hc; decide)
    (by intro c hc; simp at hc; subst hc; decide) h
  simp only [List.cons.injEq, true_and] at h2
  exact ⟨h1, dec_inj h2⟩

/-- In a program where no two types have texts with the same hash, types with the same hash are
equal. -/
theorem eq_of_hash (H : List Char → Nat) (p : Decls) (P : Ty → Prop)
    (closed : ∀ t, P t → ∀ u, Part u t → P u) (ofs : ∀ t, P t → Ofs p t)
    (noClash : ∀ t s, P t → P s → H (text H t) = H (text H s) → text H t = text H s) :
    ∀ (k : Nat) (t s : Ty), sizeOf t ≤ k → P t → P s → typeHash H t = typeHash H s → t = s := by
  intro k
  induction k with
  | zero =>
    intro t s hk
    have : sizeOf t > 0 := by cases t <;> simp <;> omega
    omega
  | succ k ih =>
    intro t s hk ht hs h
    have htx := noClash t s ht hs h
    have hc := code_eq (ofs t ht) (ofs s hs) htx
    have ot := ofs t ht
    have os := ofs s hs
    have one : ∀ {u v : Ty}, Part u t → Part v s → sizeOf u < sizeOf t → H (text H u) = H (text H v) →
        u = v := fun hu hv hlt he => ih _ _ (by omega) (closed t ht _ hu) (closed s hs _ hv) he
    have many : ∀ {us vs : List Ty}, (∀ u ∈ us, Part u t) → (∀ v ∈ vs, Part v s) →
        sizeOf us < sizeOf t → hashes H us = hashes H vs → us = vs := by
      intro us vs hu hv hlt he
      rw [hashes_map, hashes_map] at he
      exact map_inj_on he fun a ha b hb hab =>
        one (hu a ha) (hv b hb) (by have := List.sizeOf_lt_of_mem ha; omega) hab
    cases t with
    | named n a b =>
      have ot := ofs_named.1 ot
      cases s <;> simp [code] at hc
      case named m c d =>
        have os := ofs_named.1 os
        text_simp at htx
        obtain ⟨h1, h2⟩ := name_dots _ rfl (typeName_worded ot.1) (typeName_worded os.1) htx
        have h1 := String.toList_inj.1 h1
        have h2 := many (fun u hu => .named hu) (fun v hv => .named hv) (by simp; omega) h2
        obtain ⟨_, _, h3⟩ := ot
        obtain ⟨_, _, h4⟩ := os
        rw [h3, h4, h1, h2]
      case iface m c =>
        have os := ofs_iface.1 os
        text_simp at htx
        obtain ⟨h1, _⟩ := name_dots _ rfl (typeName_worded ot.1) (typeName_worded os.1) htx
        have h1 := String.toList_inj.1 h1
        have := ot.2.1
        rw [h1, os.2] at this
        simp at this
      case fn fl r ps => split at hc <;> simp at hc
      case prim q => cases q <;> simp [code] at hc
    | iface n a =>
      have ot := ofs_iface.1 ot
      cases s <;> simp [code] at hc
      case named m c d =>
        have os := ofs_named.1 os
        text_simp at htx
        obtain ⟨h1, _⟩ := name_dots _ rfl (typeName_worded ot.1) (typeName_worded os.1) htx
        have h1 := String.toList_inj.1 h1
        have := os.2.1
        rw [← h1, ot.2] at this
        simp at this
      case iface m c =>
        have os := ofs_iface.1 os
        text_simp at htx
        obtain ⟨h1, h2⟩ := name_dots _ rfl (typeName_worded ot.1) (typeName_worded os.1) htx
        have h1 := String.toList_inj.1 h1
        have h2 := many (fun u hu => .iface hu) (fun v hv => .iface hv) (by simp; omega) h2
        rw [h1, h2]
      case fn fl r ps => split at hc <;> simp at hc
      case prim q => cases q <;> simp [code] at hc
    | struct ns ts =>
      cases s <;> simp [code] at hc
      case struct ms ss =>
        text_simp at htx
        obtain ⟨h1, h2⟩ := fields_inj (by simp [hashes_map, ot.1]) (by simp [hashes_map, os.1])
          ot.2 os.2 (append_str htx)
        have h2 := many (fun u hu => .struct hu) (fun v hv => .struct hv) (by simp; omega) h2
        rw [h1, h2]
      case fn fl r ps => split at hc <;> simp at hc
      case prim q => cases q <;> simp [code] at hc
    | tagged ns ts =>
      cases s <;> simp [code] at hc
      case tagged ms ss =>
        text_simp at htx
        obtain ⟨h1, h2⟩ := tags_inj (by simp [hashes_map, ot.1]) (by simp [hashes_map, os.1])
          ot.2 os.2 (append_str htx)
        have h2 := many (fun u hu => .tagged hu) (fun v hv => .tagged hv) (by simp; omega) h2
        rw [h1, h2]
      case fn fl r ps => split at hc <;> simp at hc
      case prim q => cases q <;> simp [code] at hc
    | tuple ts =>
      cases s <;> simp [code] at hc
      case tuple ss =>
        text_simp at htx
        have h2 := many (fun u hu => .tuple hu) (fun v hv => .tuple hv) (by simp)
          (dots_inj (append_str htx))
        rw [h2]
      case fn fl r ps => split at hc <;> simp at hc
      case prim q => cases q <;> simp [code] at hc
    | union f ts =>
      cases s <;> simp [code] at hc
      case union g ss =>
        text_simp at htx
        have h2 := many (fun u hu => .union hu) (fun v hv => .union hv) (by simp)
          (dots_inj (append_str htx))
        subst h2
        simp only [Ofs] at ot os
        rw [ot, os]
      case fn fl r ps => split at hc <;> simp at hc
      case prim q => cases q <;> simp [code] at hc
    | fn fl r ps =>
      cases s <;> simp [code] at hc
      case fn gl q qs =>
        have hfx : fl.fx = gl.fx := by
          cases h1 : fl.fx <;> cases h2 : gl.fx <;> simp [h1, h2] at hc <;> rfl
        text_simp at htx; simp only [hfx, List.append_assoc, List.cons_append] at htx
        obtain ⟨h1, h2⟩ := dec_split (dots_head _) (dots_head _) (append_dot htx)
        have h1 := one (.ret) (.ret) (by simp; omega) h1
        have h2 := many (fun u hu => .param hu) (fun v hv => .param hv) (by simp; omega) (dots_inj h2)
        obtain ⟨a1, a2, a3⟩ := ot
        obtain ⟨b1, b2, b3⟩ := os
        obtain ⟨f1, f2, f3, f4⟩ := fl
        obtain ⟨g1, g2, g3, g4⟩ := gl
        simp only at a1 a2 a3 b1 b2 b3 hfx
        subst a1 a2 a3 b1 b2 b3 hfx h1 h2
        rfl
      case prim q => cases q <;> (split at hc <;> simp [code] at hc)
      all_goals (split at hc <;> simp at hc)
    | map a b =>
      cases s <;> simp [code] at hc
      case map c d =>
        text_simp at htx; simp only [List.append_assoc, List.cons_append] at htx
        obtain ⟨h1, h2⟩ := dec_under (append_dot htx)
        rw [one .key .key (by simp; omega) h1, one .value .value (by simp; omega) h2]
      case fn fl r ps => split at hc <;> simp at hc
      case prim q => cases q <;> simp [code] at hc
    | arr n a =>
      cases s <;> simp [code] at hc
      case arr m c =>
        text_simp at htx; simp only [List.append_assoc, List.cons_append] at htx
        obtain ⟨h1, h2⟩ := dec_under (append_dot htx)
        rw [h1, one .arr .arr (by simp; omega) h2]
      case fn fl r ps => split at hc <;> simp at hc
      case prim q => cases q <;> simp [code] at hc
    | ptr a =>
      cases s <;> simp [code] at hc
      case ptr c =>
        text_simp at htx
        rw [one .ptr .ptr (by simp) (dec_inj (append_dot htx))]
      case fn fl r ps => split at hc <;> simp at hc
      case prim q => cases q <;> simp [code] at hc
    | ref a =>
      cases s <;> simp [code] at hc
      case ref c =>
        text_simp at htx
        rw [one .ref .ref (by simp) (dec_inj (append_dot htx))]
      case fn fl r ps => split at hc <;> simp at hc
      case prim q => cases q <;> simp [code] at hc
    | vec a =>
      cases s <;> simp [code] at hc
      case vec c =>
        text_simp at htx
        rw [one .vec .vec (by simp) (dec_inj (append_dot htx))]
      case fn fl r ps => split at hc <;> simp at hc
      case prim q => cases q <;> simp [code] at hc
    | set a =>
      cases s <;> simp [code] at hc
      case set c =>
        text_simp at htx
        rw [one .set .set (by simp) (dec_inj (append_dot htx))]
      case fn fl r ps => split at hc <;> simp at hc
      case prim q => cases q <;> simp [code] at hc
    | chan a =>
      cases s <;> simp [code] at hc
      case chan c =>
        text_simp at htx
        rw [one .chan .chan (by simp) (dec_inj (append_dot htx))]
      case fn fl r ps => split at hc <;> simp at hc
      case prim q => cases q <;> simp [code] at hc
    | prim q =>
      cases s
      case prim q' =>
        cases q <;> cases q' <;> simp [code] at hc <;> rfl
      all_goals
        cases q <;> simp [code] at hc
      all_goals (split at hc <;> simp at hc)
    | param n => exact ot.elim
    | stop => exact ot.elim
    | allT =>
      cases s <;> simp [code] at hc
      case allT => rfl
      case fn fl r ps => split at hc <;> simp at hc
      case prim q => cases q <;> simp [code] at hc
    | fnT =>
      cases s <;> simp [code] at hc
      case fnT => rfl
      case fn fl r ps => split at hc <;> simp at hc
      case prim q => cases q <;> simp [code] at hc
    | integerT =>
      cases s <;> simp [code] at hc
      case integerT => rfl
      case fn fl r ps => split at hc <;> simp at hc
      case prim q => cases q <;> simp [code] at hc
    | floaterT =>
      cases s <;> simp [code] at hc
      case floaterT => rfl
      case fn fl r ps => split at hc <;> simp at hc
      case prim q => cases q <;> simp [code] at hc

/-! ### the same types have the same text -/

mutual
theorem text_same (H : List Char → Nat) {t s : Ty} (h : Same t s) (hu : t.unionless = true) :
    text H t = text H s :=
  match h with
  | .prim _ | .allT | .fnT | .integerT | .floaterT | .param _ | .stop => rfl
  | .ptr h => by text_simp; simp only [text_same H h (by simpa [Ty.unionless] using hu)]
  | .ref h => by text_simp; simp only [text_same H h (by simpa [Ty.unionless] using hu)]
  | .vec h => by text_simp; simp only [text_same H h (by simpa [Ty.unionless] using hu)]
  | .set h => by text_simp; simp only [text_same H h (by simpa [Ty.unionless] using hu)]
  | .chan h => by text_simp; simp only [text_same H h (by simpa [Ty.unionless] using hu)]
  | .map h1 h2 => by
    simp only [Ty.unionless, Bool.and_eq_true] at hu
    text_simp; simp only [text_same H h1 hu.1, text_same H h2 hu.2]
  | .arr _ h => by text_simp; simp only [text_same H h (by simpa [Ty.unionless] using hu)]
  | .tuple h => by text_simp; simp only [hashes_same H h (by simpa [Ty.unionless] using hu)]
  | .fn _ h1 h2 => by
    simp only [Ty.unionless, Bool.and_eq_true] at hu
    text_simp; simp only [text_same H h1 hu.1, hashes_same H h2 hu.2]
  | .struct _ h => by text_simp; simp only [hashes_same H h (by simpa [Ty.unionless] using hu)]
  | .tagged _ h => by text_simp; simp only [hashes_same H h (by simpa [Ty.unionless] using hu)]
  | .iface _ h => by text_simp; simp only [hashes_same H h (by simpa [Ty.unionless] using hu)]
  | .named _ _ _ _ h => by
    simp only [Ty.unionless, Bool.and_eq_true] at hu
    text_simp; simp only [hashes_same H h hu.1]
  | .union _ _ _ _ => by simp [Ty.unionless] at hu
  | .openL _ _ hb _ _ => by simp [Ty.unionless, hb] at hu
  | .openR (t := t) _ _ _ ht _ => by
    cases t <;> simp [Ty.lists] at ht
    simp [Ty.unionless] at hu
  | .openB _ _ _ _ hb _ _ => by simp [Ty.unionless, hb] at hu

theorem hashes_same (H : List Char → Nat) {ts ss : List Ty} (h : SameL ts ss)
    (hu : unionlessL ts = true) : hashes H ts = hashes H ss :=
  match h with
  | .nil => rfl
  | .cons h1 h2 => by
    simp only [unionlessL, Bool.and_eq_true] at hu
    simp only [hashes_cons, text_same H h1 hu.1, hashes_same H h2 hu.2]
end

end Nature.Types
