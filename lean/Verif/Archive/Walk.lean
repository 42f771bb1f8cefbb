import Verif.Archive.Names

/-!
# Records and walks over a written archive
-/

namespace Nature.Archive

open Spec (dec fill record)

theorem fill_length (w : Nat) (s : List Nat) (h : s.length ≤ w) : (fill w s).length = w := by
  simp [fill]; omega

theorem slice_mid (a b c : List Nat) : slice (a ++ b ++ c) a.length b.length = .ok b := by
  unfold slice
  rw [if_pos (by simp)]
  simp

theorem slice_mid' (bytes a b c : List Nat) (off len : Nat) (hb : bytes = a ++ b ++ c)
    (ho : off = a.length) (hl : len = b.length) : slice bytes off len = .ok b := by
  rw [hb, ho, hl, slice_mid]

/-- The header of a written record. -/
def header (name content info : List Nat) : List Nat :=
  fill 16 name ++ info ++ fill 10 (dec content.length) ++ [96, 10]

/-- What follows the header. -/
def body (content : List Nat) (extra : Nat) : List Nat :=
  content ++ (if content.length % 2 = 1 then [extra] else [])

theorem record_eq (name content info : List Nat) (extra : Nat) :
    record name content info extra = header name content info ++ body content extra := by
  simp [record, header, body]

theorem header_length (name content info : List Nat) (hn : name.length ≤ 16)
    (hi : info.length = 32) (hc : content.length < 10 ^ 10) :
    (header name content info).length = 60 := by
  have h1 := fill_length 16 name hn
  have h2 := fill_length 10 (dec content.length) (dec_length 9 _ hc)
  simp [header, h1, h2, hi]

theorem body_length (content : List Nat) (extra : Nat) :
    (body content extra).length = content.length + content.length % 2 := by
  unfold body
  split <;> simp <;> omega

theorem record_length (name content info : List Nat) (extra : Nat) (hn : name.length ≤ 16)
    (hi : info.length = 32) (hc : content.length < 10 ^ 10) :
    (record name content info extra).length = 60 + content.length + content.length % 2 := by
  rw [record_eq, List.length_append, header_length _ _ _ hn hi hc, body_length]; omega

/-- The record found at the start of a written record. -/
theorem recordAt_record (pre rest name content info : List Nat) (extra : Nat) (thin : Bool)
    (ht : thin = false ∨ memberKind (fill 16 name) ≠ .regular)
    (hn : name.length ≤ 16) (hi : info.length = 32) (hc : content.length < 10 ^ 10) :
    recordAt (pre ++ record name content info extra ++ rest) pre.length thin =
      .ok ⟨fill 16 name, pre.length + 60, content.length,
        pre.length + (record name content info extra).length, memberKind (fill 16 name), true⟩ := by
  have hl := record_length name content info extra hn hi hc
  have hh := header_length name content info hn hi hc
  have hf := fill_length 16 name hn
  have hd := fill_length 10 (dec content.length) (dec_length 9 _ hc)
  have hs : slice (pre ++ record name content info extra ++ rest) pre.length 60 =
      .ok (header name content info) := by
    have := slice_mid pre (header name content info) (body content extra ++ rest)
    rw [hh] at this
    rw [← this, record_eq]
    simp only [List.append_assoc]
  have h58 : (header name content info).getD 58 0 = 96 := by
    unfold header
    rw [List.getD_eq_getElem?_getD, List.getElem?_append_right (by simp [hf, hd, hi])]
    simp [hf, hd, hi]
  have h59 : (header name content info).getD 59 0 = 10 := by
    unfold header
    rw [List.getD_eq_getElem?_getD, List.getElem?_append_right (by simp [hf, hd, hi])]
    simp [hf, hd, hi]
  have hsz : ((header name content info).drop 48).take 10 = fill 10 (dec content.length) := by
    unfold header
    have e : fill 16 name ++ info ++ fill 10 (dec content.length) ++ [96, 10] =
        (fill 16 name ++ info) ++ (fill 10 (dec content.length) ++ [96, 10]) := by simp
    have e2 : (fill 16 name ++ info).length = 48 := by simp [hf, hi]
    rw [e, ← e2, List.drop_left, List.take_append_of_le_length (by omega),
      List.take_of_length_le (by omega)]
  have hnm : (header name content info).take 16 = fill 16 name := by
    unfold header
    simp only [List.append_assoc]
    rw [List.take_append_of_le_length (by omega), List.take_of_length_le (by omega)]
  have hlen : (pre ++ record name content info extra ++ rest).length =
      pre.length + (60 + content.length + content.length % 2) + rest.length := by
    simp [hl]; omega
  unfold recordAt
  rw [if_neg (by omega), if_neg (by omega), hs]
  simp only
  rw [if_neg (by rw [h58, h59]; simp), hsz, decimal_fill 10 _ (by omega)]
  simp only
  unfold recordBody
  have he : (!thin || memberKind (fill 16 name) != .regular) = true := by
    rcases ht with h | h
    · simp [h]
    · simp [h]
  have hnb : ¬ (thin = true ∧ memberKind (fill 16 name) = .regular ∧
      isBsd (rtrim (fill 16 name)) = true) := by
    rcases ht with h | h
    · simp [h]
    · exact fun x => h x.2.1
  simp only [hnm, he, if_true]
  rw [if_neg hnb, if_neg (by omega), hl]
  split
  · rw [if_neg (by omega)]
    congr 2; omega
  · congr 2; omega

theorem slice_content (pre rest name content info : List Nat) (extra : Nat)
    (hn : name.length ≤ 16) (hi : info.length = 32) (hc : content.length < 10 ^ 10) :
    slice (pre ++ record name content info extra ++ rest) (pre.length + 60) content.length =
      .ok content := by
  have hh := header_length name content info hn hi hc
  have := slice_mid (pre ++ header name content info) content
    ((if content.length % 2 = 1 then [extra] else []) ++ rest)
  rw [List.length_append, hh] at this
  rw [← this, record_eq, body]
  simp only [List.append_assoc]

/-! ## Kinds of names -/

theorem fill_short (name : List Nat) : rtrim (fill 16 (name ++ [47])) = name ++ [47] :=
  rtrim_fill 16 name 47 (by decide)

theorem fill_long (pos : Nat) : rtrim (fill 16 (47 :: dec pos)) = 47 :: dec pos := by
  obtain ⟨s, d, e, hd⟩ := dec_last pos
  rw [e]
  exact rtrim_fill 16 (47 :: s) _ (by omega)

/-- A text without `/` is the beginning of a name with `/` after it only if of the name. -/
theorem prefix_slash (s name : List Nat) (hs : 47 ∉ s) (h : s <+: name ++ [47]) : s <+: name := by
  rcases List.prefix_concat_iff.mp h with h | h
  · exact absurd (h ▸ by simp) hs
  · exact h

theorem kind_short (name : List Nat) (hg : Spec.GoodName name)
    (hd : ¬ Spec.ascii "__.SYMDEF" <+: name) :
    memberKind (fill 16 (name ++ [47])) = .regular := by
  obtain ⟨h1, h2, h3, h4⟩ := hg
  unfold memberKind
  simp only [fill_short]
  have a1 : name ++ [47] ≠ [47, 47] := by
    intro h
    rcases name with _ | ⟨x, xs⟩
    · simp at h
    · simp only [List.cons_append, List.cons.injEq] at h
      exact h2 (by simp [h.1])
  have a2 : name ++ [47] ≠ [47] := by
    intro h; rcases name with _ | ⟨x, xs⟩
    · exact h1 rfl
    · simp at h
  have a3 : name ++ [47] ≠ sym64 := by
    intro h; rcases name with _ | ⟨x, xs⟩
    · exact h1 rfl
    · simp only [List.cons_append, sym64, List.cons.injEq] at h
      exact h2 (by simp [h.1])
  have a4 : ¬ symdef.isPrefixOf (name ++ [47]) = true := by
    rw [List.isPrefixOf_iff_prefix]
    intro h
    exact hd (prefix_slash _ _ (by decide) h)
  rw [if_neg a1, if_neg (by simp only [not_or]; exact ⟨a2, a3, a4⟩)]

theorem kind_long (pos : Nat) : memberKind (fill 16 (47 :: dec pos)) = .regular := by
  obtain ⟨d, s, e, hd⟩ := dec_first pos
  unfold memberKind
  simp only [fill_long]
  rw [e, if_neg (by simp; omega), if_neg]
  simp only [not_or]
  refine ⟨by simp, by simp only [sym64, List.cons.injEq, not_and]; omega, by simp [symdef]⟩

theorem kind_index : memberKind (fill 16 [47]) = .symbolTable := by decide

theorem kind_table : memberKind (fill 16 [47, 47]) = .nameTable := by decide

/-! ## Names of members -/

theorem memberName_short (bytes table name : List Nat) (po ps no : Nat) (hg : Spec.GoodName name)
    (hb : name ≠ Spec.ascii "#1") :
    memberName bytes ⟨fill 16 (name ++ [47]), po, ps, no, .regular, true⟩ table false =
      .ok ⟨some name, po, ps⟩ := by
  obtain ⟨h1, h2, h3, h4⟩ := hg
  unfold memberName
  simp only [fill_short]
  rw [if_neg (by simp)]
  have hbsd : isBsd (name ++ [47]) ≠ true := by
    intro h
    rw [isBsd, List.isPrefixOf_iff_prefix] at h
    rcases List.prefix_concat_iff.mp h with h | h
    · have e : ([35, 49] : List Nat) ++ [47] = name ++ [47] := h
      exact hb (List.append_cancel_right e).symm
    · exact h2 (h.subset (by simp))
  rw [if_neg hbsd, if_neg]
  · have : copyName name = .ok name := by simp [copyName, h1, h4]
    simp only [dropSlash_snoc, this]
  · rcases name with _ | ⟨x, xs⟩
    · exact absurd rfl h1
    · intro h
      have : x = 47 := by simpa using h.2.1
      exact h2 (by simp [this])

theorem memberName_long (bytes table before after name : List Nat) (po ps no : Nat)
    (hg : Spec.GoodName name) (ht : table = before ++ (name ++ [47, 10]) ++ after)
    (hb : before = [] ∨ ∃ s, before = s ++ [10]) (hl : before.length < 2 ^ 64) :
    memberName bytes ⟨fill 16 (47 :: dec before.length), po, ps, no, .regular, true⟩ table false =
      .ok ⟨some name, po, ps⟩ := by
  obtain ⟨h1, h2, h3, h4⟩ := hg
  unfold memberName
  simp only [fill_long]
  rw [if_neg (by simp), if_neg (by simp [isBsd]), if_pos]
  · simp only [offsetField_dec, longName_at table name before after ht hb h1 h3 h4 hl]
  · obtain ⟨d, s, e, hd⟩ := dec_first before.length
    rw [e]
    simp; omega

/-! ## The walks -/

open Spec (Fits)

theorem findTable_step (pre rest name content info : List Nat) (extra fuel : Nat)
    (t : Option (List Nat)) (thin : Bool)
    (ht : thin = false ∨ memberKind (fill 16 name) ≠ .regular) (hn : name.length ≤ 16) (hi : info.length = 32)
    (hc : content.length < 10 ^ 10) (hk : memberKind (fill 16 name) ≠ .nameTable) :
    findTable (pre ++ record name content info extra ++ rest) thin (fuel + 1) pre.length t =
      findTable ((pre ++ record name content info extra) ++ rest) thin fuel
        (pre ++ record name content info extra).length t := by
  have hl := record_length name content info extra hn hi hc
  rw [findTable, if_pos (by simp [hl]; omega), recordAt_record _ _ _ _ _ _ _ ht hn hi hc]
  simp only
  rw [if_neg hk, List.length_append]

theorem findTable_members (bytes pre : List Nat) (pos : Nat) (ms : List Spec.Member)
    (hf : ∀ m ∈ ms, Fits m) (hb : bytes = pre ++ Spec.members pos ms)
    (hp : pos + (Spec.table ms).length < 10 ^ 10) (fuel : Nat)
    (hfuel : bytes.length - pre.length < fuel) (t : Option (List Nat)) :
    findTable bytes false fuel pre.length t = .ok t := by
  induction ms generalizing pre pos fuel with
  | nil =>
    obtain ⟨n, rfl⟩ : ∃ n, fuel = n + 1 := ⟨fuel - 1, by omega⟩
    rw [findTable, if_neg]
    simp [hb, Spec.members]
  | cons m ms ih =>
    obtain ⟨n, rfl⟩ : ∃ n, fuel = n + 1 := ⟨fuel - 1, by omega⟩
    obtain ⟨hg, hi, hc, h1, hd⟩ := hf m (by simp)
    have hms : ∀ x ∈ ms, Fits x := fun x hx => hf x (by simp [hx])
    by_cases hlen : m.name.length ≤ 15
    · have hn : (m.name ++ [47]).length ≤ 16 := by simp; omega
      have hl := record_length (m.name ++ [47]) m.content m.info m.extra hn hi hc
      simp only [Spec.members, if_pos hlen] at hb
      simp only [Spec.table, if_pos hlen, List.nil_append] at hp
      rw [← List.append_assoc] at hb
      have := findTable_step pre (Spec.members pos ms) (m.name ++ [47]) m.content m.info m.extra n
        t false (Or.inl rfl) hn hi hc (by rw [kind_short _ hg (hd hlen)]; simp)
      rw [← hb] at this
      rw [this]
      refine ih _ _ hms hb hp n ?_
      have := congrArg List.length hb
      simp only [List.length_append] at this ⊢
      omega
    · simp only [Spec.members, if_neg hlen] at hb
      simp only [Spec.table, if_neg hlen, List.length_append] at hp
      have hn : (47 :: dec pos).length ≤ 16 := by
        have := dec_length 9 pos (by omega)
        simp; omega
      have hl := record_length (47 :: dec pos) m.content m.info m.extra hn hi hc
      rw [← List.append_assoc] at hb
      have := findTable_step pre (Spec.members (pos + m.name.length + 2) ms) (47 :: dec pos)
        m.content m.info m.extra n t false (Or.inl rfl) hn hi hc (by rw [kind_long]; simp)
      rw [← hb] at this
      rw [this]
      refine ih _ _ hms hb (by simp at hp; omega) n ?_
      have := congrArg List.length hb
      simp only [List.length_append] at this ⊢
      omega

theorem walk_step (pre rest name content info : List Nat) (extra fuel : Nat) (table found : List Nat)
    (hn : name.length ≤ 16) (hi : info.length = 32) (hc : content.length < 10 ^ 10)
    (hk : memberKind (fill 16 name) = .regular)
    (hm : ∀ bytes po ps no, memberName bytes ⟨fill 16 name, po, ps, no, .regular, true⟩ table false =
      .ok ⟨some found, po, ps⟩)
    (out : List (List Nat × List Nat))
    (hr : walk ((pre ++ record name content info extra) ++ rest) false table fuel
      (pre ++ record name content info extra).length = .ok out) :
    walk (pre ++ record name content info extra ++ rest) false table (fuel + 1) pre.length =
      .ok ((found, content) :: out) := by
  have hl := record_length name content info extra hn hi hc
  rw [walk, if_pos (by simp [hl]; omega), recordAt_record _ _ _ _ _ _ _ (Or.inl rfl) hn hi hc]
  simp only [hk, hm, Bool.false_eq_true, if_false]
  rw [slice_content _ _ _ _ _ _ hn hi hc]
  rw [List.length_append] at hr
  simp only [hr]

/-- Records that are not members are passed over. -/
theorem walk_skip (pre rest name content info : List Nat) (extra fuel : Nat) (table : List Nat)
    (thin : Bool) (hn : name.length ≤ 16) (hi : info.length = 32) (hc : content.length < 10 ^ 10)
    (hk : memberKind (fill 16 name) ≠ .regular) :
    walk (pre ++ record name content info extra ++ rest) thin table (fuel + 1) pre.length =
      walk ((pre ++ record name content info extra) ++ rest) thin table fuel
        (pre ++ record name content info extra).length := by
  have hl := record_length name content info extra hn hi hc
  rw [walk, if_pos (by simp [hl]; omega), recordAt_record _ _ _ _ _ _ _ (Or.inr hk) hn hi hc]
  simp only [memberName]
  rw [if_pos hk, List.length_append]

theorem walk_members (bytes pre before table : List Nat) (ms : List Spec.Member)
    (hf : ∀ m ∈ ms, Fits m) (hb : bytes = pre ++ Spec.members before.length ms)
    (ht : table = before ++ Spec.table ms) (hbe : before = [] ∨ ∃ s, before = s ++ [10])
    (hp : before.length + (Spec.table ms).length < 10 ^ 10) (fuel : Nat)
    (hfuel : bytes.length - pre.length < fuel) :
    walk bytes false table fuel pre.length = .ok (ms.map fun m => (m.name, m.content)) := by
  induction ms generalizing pre before fuel with
  | nil =>
    obtain ⟨n, rfl⟩ : ∃ n, fuel = n + 1 := ⟨fuel - 1, by omega⟩
    rw [walk, if_neg]
    · rfl
    · simp [hb, Spec.members]
  | cons m ms ih =>
    obtain ⟨n, rfl⟩ : ∃ n, fuel = n + 1 := ⟨fuel - 1, by omega⟩
    obtain ⟨hg, hi, hc, h1, hd⟩ := hf m (by simp)
    have hms : ∀ x ∈ ms, Fits x := fun x hx => hf x (by simp [hx])
    by_cases hlen : m.name.length ≤ 15
    · have hn : (m.name ++ [47]).length ≤ 16 := by simp; omega
      have hl := record_length (m.name ++ [47]) m.content m.info m.extra hn hi hc
      simp only [Spec.members, if_pos hlen] at hb
      simp only [Spec.table, if_pos hlen, List.nil_append] at hp ht
      rw [← List.append_assoc] at hb
      have hrest := ih _ before hms hb ht hbe hp n (by
        have := congrArg List.length hb
        simp only [List.length_append] at this ⊢
        omega)
      rw [hb] at hrest ⊢
      exact walk_step _ _ _ _ _ _ _ _ _ hn hi hc (kind_short _ hg (hd hlen))
        (fun bytes po ps no => memberName_short bytes table m.name po ps no hg h1) _ hrest
    · simp only [Spec.members, if_neg hlen] at hb
      simp only [Spec.table, if_neg hlen] at hp ht
      rw [List.length_append] at hp
      have hn : (47 :: dec before.length).length ≤ 16 := by
        have := dec_length 9 before.length (by omega)
        simp; omega
      have hl := record_length (47 :: dec before.length) m.content m.info m.extra hn hi hc
      rw [← List.append_assoc] at hb ht
      have e : before.length + m.name.length + 2 = (before ++ (m.name ++ [47, 10])).length := by
        simp; omega
      rw [e] at hb
      have hrest := ih _ (before ++ (m.name ++ [47, 10])) hms hb ht
        (Or.inr ⟨before ++ (m.name ++ [47]), by simp⟩) (by rw [← e]; simp at hp; omega) n (by
        have := congrArg List.length hb
        simp only [List.length_append] at this ⊢
        omega)
      rw [hb] at hrest ⊢
      exact walk_step _ _ _ _ _ _ _ _ _ hn hi hc (kind_long _)
        (fun bytes po ps no => memberName_long bytes table before (Spec.table ms) m.name po ps no hg
          ht hbe (by omega)) _ hrest

end Nature.Archive
