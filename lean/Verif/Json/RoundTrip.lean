import Verif.Json.Values
namespace Nature.Json

/-! ### Maps -/

theorem insert_new {k : List Byte} {v : V} : ∀ {m : List (List Byte × V)}, k ∉ m.map Prod.fst → insert k v m = m ++ [(k, v)] := by
  intro m
  induction m with
  | nil => intro _; rfl
  | cons e m ih =>
    intro h
    obtain ⟨k', v'⟩ := e
    simp only [List.map_cons, List.mem_cons, not_or] at h
    rw [insert, if_neg (fun hh => h.1 hh.symm), ih h.2]
    rfl

theorem insert_mem {k : List Byte} {v : V} {e : List Byte × V} : ∀ {m : List (List Byte × V)}, e ∈ insert k v m → e = (k, v) ∨ e ∈ m := by
  intro m
  induction m with
  | nil => intro h; simpa [insert] using h
  | cons f m ih =>
    intro h
    obtain ⟨k', v'⟩ := f
    rw [insert] at h
    split at h
    · rcases List.mem_cons.1 h with h | h
      · exact Or.inl h
      · exact Or.inr (List.mem_cons_of_mem _ h)
    · rcases List.mem_cons.1 h with h | h
      · exact Or.inr (h ▸ List.mem_cons_self)
      · rcases ih h with h | h
        · exact Or.inl h
        · exact Or.inr (List.mem_cons_of_mem _ h)

theorem insert_nodup {k : List Byte} {v : V} : ∀ {m : List (List Byte × V)}, (m.map Prod.fst).Nodup → ((insert k v m).map Prod.fst).Nodup := by
  intro m
  induction m with
  | nil => intro _; simp [insert]
  | cons f m ih =>
    intro h
    obtain ⟨k', v'⟩ := f
    rw [insert]
    simp only [List.map_cons, List.nodup_cons] at h
    split
    · rename_i e
      subst e
      simpa using h
    · rename_i hne
      simp only [List.map_cons, List.nodup_cons]
      refine ⟨fun hm => ?_, ih h.2⟩
      obtain ⟨e, he, hk⟩ := List.mem_map.1 hm
      rcases insert_mem he with rfl | he
      · exact hne hk.symm
      · exact h.1 (List.mem_map.2 ⟨e, he, hk⟩)

theorem foldl_insert_nodup : ∀ (m acc : List (List Byte × V)), ((acc ++ m).map Prod.fst).Nodup →
    m.foldl (fun acc e => insert e.1 e.2 acc) acc = acc ++ m := by
  intro m
  induction m with
  | nil => intro acc _; simp
  | cons e m ih =>
    intro acc h
    have hn : e.1 ∉ acc.map Prod.fst := by
      simp only [List.map_append, List.map_cons] at h
      have := (List.nodup_append.1 h).2.2
      intro hm
      exact this _ hm _ List.mem_cons_self rfl
    rw [List.foldl_cons, insert_new hn, ih _ (by simpa using h)]
    simp

theorem mapOf_nodup {m : List (List Byte × V)} (h : (m.map Prod.fst).Nodup) : mapOf m = m := by
  have := foldl_insert_nodup m [] (by simpa using h)
  simpa [mapOf] using this

theorem foldl_insert_keys : ∀ (m acc : List (List Byte × V)), (acc.map Prod.fst).Nodup →
    ((m.foldl (fun acc e => insert e.1 e.2 acc) acc).map Prod.fst).Nodup := by
  intro m
  induction m with
  | nil => intro acc h; exact h
  | cons e m ih => intro acc h; exact ih _ (insert_nodup h)

theorem foldl_insert_mem {e : List Byte × V} : ∀ (m acc : List (List Byte × V)),
    e ∈ m.foldl (fun acc e => insert e.1 e.2 acc) acc → e ∈ acc ∨ e ∈ m := by
  intro m
  induction m with
  | nil => intro acc h; exact Or.inl h
  | cons f m ih =>
    intro acc h
    rcases ih _ h with h | h
    · rcases insert_mem h with h | h
      · exact Or.inr (h ▸ List.mem_cons_self)
      · exact Or.inl h
    · exact Or.inr (List.mem_cons_of_mem _ h)

/-! ### Strings -/

theorem utf8_ne_nil (cp : Nat) : utf8 cp ≠ [] := by
  rw [utf8]; split
  · simp
  · split
    · simp
    · split <;> simp

theorem clean_of_valid {s : List Byte} (h : ValidUtf8 s) : Clean s s := by
  obtain ⟨cps, h1, rfl⟩ := h
  induction cps with
  | nil => exact .nil
  | cons cp cps ih =>
    rw [List.flatMap_cons]
    exact .rune cp (h1 cp List.mem_cons_self) (ih fun c hc => h1 c (List.mem_cons_of_mem _ hc))

theorem valid_append {a b : List Byte} (ha : ValidUtf8 a) (hb : ValidUtf8 b) : ValidUtf8 (a ++ b) := by
  obtain ⟨c1, h1, rfl⟩ := ha
  obtain ⟨c2, h2, rfl⟩ := hb
  refine ⟨c1 ++ c2, ?_, by rw [List.flatMap_append]⟩
  intro cp hcp
  rcases List.mem_append.1 hcp with h | h
  · exact h1 cp h
  · exact h2 cp h

theorem valid_utf8 {cp : Nat} (h : Scalar cp) : ValidUtf8 (utf8 cp) :=
  ⟨[cp], fun c hc => by rw [List.mem_singleton.1 hc]; exact h, by simp⟩

theorem valid_ascii {c : Byte} (h : c.toNat < 0x80) : ValidUtf8 [c] := by
  have := valid_utf8 (cp := c.toNat) ⟨by omega, by omega⟩
  rwa [utf8_low h, ofNat_eq rfl] at this

theorem clean_valid {s o : List Byte} (h : Clean s o) : ValidUtf8 o := by
  induction h with
  | nil => exact ⟨[], fun c hc => absurd hc (by simp), rfl⟩
  | rune cp hs _ ih => exact valid_append (valid_utf8 hs) ih
  | bad c _ _ ih => exact valid_append (valid_utf8 fffd_scalar) ih

theorem clean_exists : ∀ n, ∀ s : List Byte, s.length ≤ n → ∃ o, Clean s o := by
  intro n
  induction n with
  | zero =>
    intro s hs
    obtain rfl := List.length_eq_zero_iff.1 (Nat.le_zero.1 hs)
    exact ⟨[], .nil⟩
  | succ n ih =>
    intro s hs
    cases s with
    | nil => exact ⟨[], .nil⟩
    | cons c t =>
      by_cases h : ∃ cp t', Scalar cp ∧ c :: t = utf8 cp ++ t'
      · obtain ⟨cp, t', h1, h2⟩ := h
        have hl : 0 < (utf8 cp).length := List.length_pos_iff.2 (utf8_ne_nil cp)
        have := congrArg List.length h2
        rw [List.length_append] at this
        obtain ⟨o, ho⟩ := ih t' (by omega)
        rw [h2]
        exact ⟨_, .rune cp h1 ho⟩
      · obtain ⟨o, ho⟩ := ih t (by simp at hs; omega)
        exact ⟨_, .bad c (fun cp t' h1 h2 => h ⟨cp, t', h1, h2⟩) ho⟩

theorem chars_valid {l o : List Byte} (h : Chars l o) : ValidUtf8 o := by
  induction h with
  | nil => exact ⟨[], fun c hc => absurd hc (by simp), rfl⟩
  | plain c h1 h2 _ _ _ ih => exact valid_append (valid_ascii (UInt8.lt_iff_toNat_lt.1 h2)) ih
  | @escape l o e c he _ ih =>
    refine valid_append (a := [c]) (valid_ascii ?_) ih
    simp only [List.mem_cons, List.not_mem_nil, or_false, Prod.mk.injEq] at he
    rcases he with ⟨_, rfl⟩ | ⟨_, rfl⟩ | ⟨_, rfl⟩ | ⟨_, rfl⟩ | ⟨_, rfl⟩ | ⟨_, rfl⟩ | ⟨_, rfl⟩ | ⟨_, rfl⟩ <;> decide
  | unicode h n hh hn _ ih =>
    have := hex4_lt hh
    exact valid_append (valid_utf8 ⟨by omega, hn⟩) ih
  | pair h1 h2 hi lo hh1 a1 a2 hh2 b1 b2 _ ih => exact valid_append (valid_utf8 ⟨by omega, by omega⟩) ih
  | rune cp hs _ _ ih => exact valid_append (valid_utf8 hs) ih
  | lone _ _ _ _ _ _ _ ih => exact valid_append (valid_utf8 fffd_scalar) ih
  | bad _ _ _ _ ih => exact valid_append (valid_utf8 fffd_scalar) ih

theorem hex_table : ∀ n : Fin 32, hex4 (Fmt.utosWith 16 97 n.1 48 4) = some (n.1, []) := by decide +kernel

theorem hex_control {n : Nat} (h : n < 32) : Hex4 (Fmt.utosWith 16 97 n 48 4) n := by
  obtain ⟨x, hx, e⟩ := hex4_sound (hex_table ⟨n, h⟩)
  rw [List.append_nil] at e
  rw [e]; exact hx

theorem hex_fffd : Hex4 [102, 102, 102, 100] 0xFFFD := by
  obtain ⟨x, hx, e⟩ := hex4_sound (show hex4 [102, 102, 102, 100] = some (0xFFFD, []) by decide +kernel)
  rw [List.append_nil] at e
  rw [e]; exact hx

theorem body_ascii (n : Nat) (c : Byte) (t o : List Byte) (h : c.toNat < 0x80) (ih : Chars (serializeBody n t) o) :
    Chars (serializeBody (n + 1) (c :: t)) (c :: o) := by
  rw [serializeBody]
  by_cases h1 : c = 34
  · rw [if_pos h1]; subst h1; exact .escape 34 34 (by decide) ih
  rw [if_neg h1]
  by_cases h2 : c = 92
  · rw [if_pos h2]; subst h2; exact .escape 92 92 (by decide) ih
  rw [if_neg h2]
  by_cases h3 : c = 8
  · rw [if_pos h3]; subst h3; exact .escape 98 8 (by decide) ih
  rw [if_neg h3]
  by_cases h4 : c = 12
  · rw [if_pos h4]; subst h4; exact .escape 102 12 (by decide) ih
  rw [if_neg h4]
  by_cases h5 : c = 10
  · rw [if_pos h5]; subst h5; exact .escape 110 10 (by decide) ih
  rw [if_neg h5]
  by_cases h6 : c = 13
  · rw [if_pos h6]; subst h6; exact .escape 114 13 (by decide) ih
  rw [if_neg h6]
  by_cases h7 : c = 9
  · rw [if_pos h7]; subst h7; exact .escape 116 9 (by decide) ih
  rw [if_neg h7]
  by_cases h8 : c < 32
  · rw [if_pos h8]
    have hn : c.toNat < 32 := UInt8.lt_iff_toNat_lt.1 h8
    have := Chars.unicode _ _ (hex_control hn) (by omega) ih
    rwa [utf8_low h, ofNat_eq rfl] at this
  rw [if_neg h8, if_pos (UInt8.lt_iff_toNat_lt.2 h)]
  exact .plain c (UInt8.not_lt.1 h8) (UInt8.lt_iff_toNat_lt.2 h) h1 h2 ih

theorem body_high (n : Nat) (c : Byte) (t : List Byte) (h : 0x80 ≤ c.toNat) : serializeBody (n + 1) (c :: t) =
    if utf8Len (c :: t) = 0 then 92 :: 117 :: 102 :: 102 :: 102 :: 100 :: serializeBody n t
    else (c :: t).take (utf8Len (c :: t)) ++ serializeBody n ((c :: t).drop (utf8Len (c :: t))) := by
  have ne : ∀ k : Byte, k.toNat < 0x80 → c ≠ k := by rintro k hk rfl; omega
  rw [serializeBody, if_neg (ne 34 (by decide)), if_neg (ne 92 (by decide)), if_neg (ne 8 (by decide)), if_neg (ne 12 (by decide)),
    if_neg (ne 10 (by decide)), if_neg (ne 13 (by decide)), if_neg (ne 9 (by decide)),
    if_neg (show ¬ c < 32 from fun hh => by have : c.toNat < 32 := UInt8.lt_iff_toNat_lt.1 hh; omega),
    if_neg (show ¬ c < 0x80 from fun hh => by have : c.toNat < 0x80 := UInt8.lt_iff_toNat_lt.1 hh; omega)]

theorem body_chars {s o : List Byte} (h : Clean s o) : ∀ n, s.length ≤ n → Chars (serializeBody n s) o := by
  induction h with
  | nil =>
    intro n _
    cases n with
    | zero => exact .nil
    | succ n => exact .nil
  | @rune l o cp hs _ ih =>
    intro n hn
    by_cases h80 : cp < 0x80
    · rw [utf8_low h80] at hn ⊢
      obtain ⟨n, rfl⟩ : ∃ k, n = k + 1 := ⟨n - 1, by simp at hn; omega⟩
      exact body_ascii n _ l o (by rw [toNat_ofNat_lt (by omega)]; exact h80) (ih n (by simp at hn; omega))
    · obtain ⟨c, t, e, h1, _⟩ := utf8_high hs (by omega)
      obtain ⟨e1, e2⟩ := utf8Len_enc hs (Nat.le_of_not_lt h80) l
      have hl : (utf8 cp ++ l).length ≤ n := hn
      rw [List.length_append] at hl
      obtain ⟨n, rfl⟩ : ∃ k, n = k + 1 := ⟨n - 1, by omega⟩
      have hb : serializeBody (n + 1) (utf8 cp ++ l) = utf8 cp ++ serializeBody n l := by
        have := body_high n c (t ++ l) h1
        rw [← List.cons_append, ← e, e1, if_neg e2, List.take_left, List.drop_left] at this
        exact this
      rw [hb]
      exact .rune cp hs (Nat.le_of_not_lt h80) (ih n (by omega))
  | @bad l o c hbad _ ih =>
    intro n hn
    have hc : 0x80 ≤ c.toNat := by
      cases Nat.lt_or_ge c.toNat 0x80 with
      | inr h => exact h
      | inl h =>
        refine absurd ?_ (hbad c.toNat l ⟨by omega, by omega⟩)
        rw [utf8_low h, ofNat_eq rfl]; rfl
    have h0 : utf8Len (c :: l) = 0 := by
      cases Nat.decEq (utf8Len (c :: l)) 0 with
      | isTrue h => exact h
      | isFalse h =>
        obtain ⟨cp, t, h1, _, h3⟩ := utf8Len_dec h
        exact absurd h3 (hbad cp t h1)
    obtain ⟨n, rfl⟩ : ∃ k, n = k + 1 := ⟨n - 1, by simp at hn; omega⟩
    rw [body_high n c l hc, if_pos h0]
    exact Chars.unicode [102, 102, 102, 100] 0xFFFD hex_fffd (by omega) (ih n (by simp at hn; omega))

/-! ### Values -/

theorem serialize_arr (l : List V) : serialize (.arr l) = 91 :: (commas (l.map serialize) ++ [93]) := by
  rw [serialize]
  congr 3
  exact List.attach_map_val (f := serialize) (l := l)

theorem serialize_obj (m : List (List Byte × V)) :
    serialize (.obj m) = 123 :: (commas (m.map fun e => serializeString e.1 ++ 58 :: serialize e.2) ++ [125]) := by
  rw [serialize]
  congr 3
  exact List.attach_map_val (f := fun e : List Byte × V => serializeString e.1 ++ 58 :: serialize e.2) (l := m)

theorem elems_serialize {d : Nat} : ∀ (v : V) (l : List V), (∀ x ∈ v :: l, Val d (serialize x) x) →
    Elems (Val d) (commas ((v :: l).map serialize)) (v :: l) := by
  intro v l
  induction l generalizing v with
  | nil =>
    intro h
    have := Elems.one ws_nil (h v List.mem_cons_self) ws_nil
    simpa [commas] using this
  | cons w l ih =>
    intro h
    have h2 := ih w fun x hx => h x (List.mem_cons_of_mem _ hx)
    have := Elems.cons ws_nil (h v List.mem_cons_self) ws_nil h2
    simpa [commas] using this

theorem member_serialize {d : Nat} {e : List Byte × V} (h1 : ValidUtf8 e.1) (h2 : Val d (serialize e.2) e.2) :
    Member (Val d) (serializeString e.1 ++ 58 :: serialize e.2) e.1 e.2 :=
  ⟨[], serializeBody e.1.length e.1, [], [], serialize e.2, [], ws_nil, body_chars (clean_of_valid h1) _ (Nat.le_refl _), ws_nil, ws_nil,
    h2, ws_nil, by simp [serializeString]⟩

theorem members_serialize {d : Nat} : ∀ (e : List Byte × V) (l : List (List Byte × V)),
    (∀ x ∈ e :: l, ValidUtf8 x.1 ∧ Val d (serialize x.2) x.2) →
    Members (Val d) (commas ((e :: l).map fun e => serializeString e.1 ++ 58 :: serialize e.2)) (e :: l) := by
  intro e l
  induction l generalizing e with
  | nil =>
    intro h
    obtain ⟨h1, h2⟩ := h e List.mem_cons_self
    exact Members.one (member_serialize h1 h2)
  | cons f l ih =>
    intro h
    obtain ⟨h1, h2⟩ := h e List.mem_cons_self
    exact Members.cons (member_serialize h1 h2) (ih f fun x hx => h x (List.mem_cons_of_mem _ hx))

theorem str_leaf {s o : List Byte} (h : Clean s o) : Leaf (serialize (.str s)) (.str o) := by
  rw [serialize]
  exact .str (body_chars h _ (Nat.le_refl _))

theorem serialize_val : ∀ d v, Wf d v → Val d (serialize v) v := by
  intro d
  induction d with
  | zero =>
    intro v h
    cases v with
    | null => rw [serialize]; exact .null
    | bool b => cases b <;> rw [serialize]; exact .false; exact .true
    | num t => rw [serialize]; exact .num h
    | str s => exact str_leaf (clean_of_valid h)
    | arr l => exact h.elim
    | obj m => exact h.elim
  | succ d ih =>
    intro v h
    cases v with
    | null => rw [serialize]; exact Or.inl .null
    | bool b => cases b <;> rw [serialize]; exact Or.inl .false; exact Or.inl .true
    | num t => rw [serialize]; exact Or.inl (.num h)
    | str s => exact Or.inl (str_leaf (clean_of_valid h))
    | arr l =>
      rw [serialize_arr]
      cases l with
      | nil => exact Or.inr (Or.inl ⟨[], ws_nil, rfl, rfl⟩)
      | cons v l => exact Or.inr (Or.inr (Or.inl ⟨_, _, elems_serialize v l fun x hx => ih x (h x hx), rfl, rfl⟩))
    | obj m =>
      rw [serialize_obj]
      cases m with
      | nil => exact Or.inr (Or.inr (Or.inr (Or.inl ⟨[], ws_nil, rfl, rfl⟩)))
      | cons e m =>
        refine Or.inr (Or.inr (Or.inr (Or.inr ⟨_, _, members_serialize e m fun x hx => ⟨(h.2 x hx).1, ih _ (h.2 x hx).2⟩, rfl, ?_⟩)))
        rw [mapOf_nodup h.1]

theorem leaf_wf {t : List Byte} {v : V} (h : Leaf t v) (d : Nat) : Wf d v := by
  cases h with
  | null => simp only [Wf]
  | true => simp only [Wf]
  | false => simp only [Wf]
  | num h => simp only [Wf]; exact h
  | str h => simp only [Wf]; exact chars_valid h

theorem elems_mem {P : List Byte → V → Prop} {l : List Byte} {vs : List V} (h : Elems P l vs) : ∀ v ∈ vs, ∃ t, P t v := by
  induction h with
  | one _ ht _ => intro v hv; rw [List.mem_singleton.1 hv]; exact ⟨_, ht⟩
  | cons _ ht _ _ ih =>
    intro v hv
    rcases List.mem_cons.1 hv with rfl | hv
    · exact ⟨_, ht⟩
    · exact ih v hv

theorem members_mem {P : List Byte → V → Prop} {l : List Byte} {m : List (List Byte × V)} (h : Members P l m) :
    ∀ e ∈ m, ValidUtf8 e.1 ∧ ∃ t, P t e.2 := by
  induction h with
  | one hm =>
    intro e he
    rw [List.mem_singleton.1 he]
    obtain ⟨_, _, _, _, t, _, _, hk, _, _, ht, _, _⟩ := hm
    exact ⟨chars_valid hk, t, ht⟩
  | cons hm _ ih =>
    intro e he
    rcases List.mem_cons.1 he with rfl | he
    · obtain ⟨_, _, _, _, t, _, _, hk, _, _, ht, _, _⟩ := hm
      exact ⟨chars_valid hk, t, ht⟩
    · exact ih e he

theorem val_wf : ∀ d t v, Val d t v → Wf d v := by
  intro d
  induction d with
  | zero => intro t v h; exact leaf_wf h 0
  | succ d ih =>
    intro t v h
    rcases h with h | ⟨w, _, _, rfl⟩ | ⟨l, vs, hl, _, rfl⟩ | ⟨w, _, _, rfl⟩ | ⟨l, m, hl, _, rfl⟩
    · exact leaf_wf h _
    · intro v hv; cases hv
    · intro v hv
      obtain ⟨t, ht⟩ := elems_mem hl v hv
      exact ih t v ht
    · exact ⟨by simp, fun e he => by cases he⟩
    · refine ⟨foldl_insert_keys m [] (by simp), fun e he => ?_⟩
      rcases foldl_insert_mem m [] he with he | he
      · cases he
      · obtain ⟨h1, t, ht⟩ := members_mem hl e he
        exact ⟨h1, ih t _ ht⟩

end Nature.Json
