import Verif.Symtab.Write

/-!
# Reading what was written
-/

namespace Nature.Symtab

open Spec (room Fits word read)

theorem word_u16 (v : Nat) (h : v < 2 ^ 16) (rest : List Nat) : word 2 (u16 v ++ rest) = v := by
  simp only [u16, word, List.cons_append, List.nil_append, Nat.shiftRight_eq_div_pow]
  omega

theorem word_u32 (v : Nat) (h : v < 2 ^ 32) (rest : List Nat) : word 4 (u32 v ++ rest) = v := by
  simp only [u32, word, List.cons_append, List.nil_append, Nat.shiftRight_eq_div_pow]
  omega

theorem word_u64 (v : Nat) (h : v < 2 ^ 64) (rest : List Nat) : word 8 (u64 v ++ rest) = v := by
  simp only [u64, u32, word, List.cons_append, List.nil_append, Nat.shiftRight_eq_div_pow]
  omega

theorem info (b t : Nat) (hb : b ≤ 15) (ht : t ≤ 15) : ((b <<< 4) ||| t) % 256 = 16 * b + t := by
  have key : ∀ b t : Fin 16, ((b.val <<< 4) ||| t.val) % 256 = 16 * b.val + t.val := by decide +kernel
  exact key ⟨b, by omega⟩ ⟨t, by omega⟩

theorem drop_encAll (es : List Entry) (c k : Nat) (e : Entry) (h : es[k]? = some e) :
    ∃ rest, (encAll c es).drop (24 * k) = enc (offOf (c + room (es.take k)) e) e ++ rest := by
  induction es generalizing c k with
  | nil => simp at h
  | cons a es ih =>
    rcases k with _ | k
    · simp only [List.getElem?_cons_zero, Option.some.injEq] at h
      subst h
      exact ⟨encAll (c + (str a).length) es, by simp [encAll, room]⟩
    · obtain ⟨rest, hr⟩ := ih (c + (str a).length) k (by simpa using h)
      refine ⟨rest, ?_⟩
      rw [encAll, show 24 * (k + 1) = (enc (offOf c a) a).length + 24 * k by rw [enc_length]; omega,
        ← List.drop_drop, List.drop_left, hr, List.take_succ_cons, room_cons, Nat.add_assoc]

theorem drop_strAll (es : List Entry) (k : Nat) (e : Entry) (h : es[k]? = some e) :
    ∃ rest, (strAll es).drop (room (es.take k)) = str e ++ rest := by
  induction es generalizing k with
  | nil => simp at h
  | cons a es ih =>
    rcases k with _ | k
    · simp only [List.getElem?_cons_zero, Option.some.injEq] at h
      subst h
      exact ⟨strAll es, by simp [strAll, room]⟩
    · obtain ⟨rest, hr⟩ := ih k (by simpa using h)
      refine ⟨rest, ?_⟩
      rw [strAll, List.take_succ_cons, room_cons, ← List.drop_drop, List.drop_left, hr]

theorem takeWhile_name (n rest : List Nat) (h : ∀ b ∈ n, 0 < b ∧ b < 256) :
    (n ++ 0 :: rest).takeWhile (· ≠ 0) = n := by
  induction n with
  | nil => simp
  | cons b n ih =>
    have hb := (h b (by simp)).1
    rw [List.cons_append, List.takeWhile_cons, if_pos (by simp; omega),
      ih (fun x hx => h x (by simp [hx]))]

theorem room_take_le (es : List Entry) (k : Nat) : room (es.take k) ≤ room es := by
  induction es generalizing k with
  | nil => simp [room]
  | cons e es ih =>
    rcases k with _ | k
    · simp [room]
    · rw [List.take_succ_cons, room_cons, room_cons]
      have := ih k
      omega

theorem fields (off : Nat) (e : Entry) (rest : List Nat) (ho : off < 2 ^ 32) (hf : Fits e)
    (hb : e.binding ≤ 15 ∧ e.type ≤ 15) :
    word 4 (enc off e ++ rest) = off ∧
      (enc off e ++ rest).getD 4 0 = 16 * e.binding + e.type ∧
      (enc off e ++ rest).getD 5 0 = e.other ∧
      word 2 ((enc off e ++ rest).drop 6) = e.sectionIndex ∧
      word 8 ((enc off e ++ rest).drop 8) = e.value ∧
      word 8 ((enc off e ++ rest).drop 16) = e.size := by
  refine ⟨?_, ?_, ?_, ?_, ?_, ?_⟩
  · simp only [enc, List.append_assoc]
    exact word_u32 off ho _
  · rw [← info e.binding e.type hb.1 hb.2]
    simp [enc, u32]
  · simp [enc, u32]
  · have : (enc off e ++ rest).drop 6 = u16 e.sectionIndex ++ (u64 e.value ++ u64 e.size ++ rest) := by
      simp [enc, u32]
    rw [this]
    exact word_u16 _ hf.sectionIndex _
  · have : (enc off e ++ rest).drop 8 = u64 e.value ++ (u64 e.size ++ rest) := by
      simp [enc, u32, u16]
    rw [this]
    exact word_u64 _ hf.value _
  · have : (enc off e ++ rest).drop 16 = u64 e.size ++ rest := by
      simp [enc, u32, u16, u64]
    rw [this]
    exact word_u64 _ hf.size _

theorem name_at (es : List Entry) (k : Nat) (e : Entry) (h : es[k]? = some e) (hf : Fits e)
    (n : List Nat) (hne : e.name = some n) :
    ((0 :: strAll es).drop (offOf (1 + room (es.take k)) e)).takeWhile (· ≠ 0) = n := by
  obtain ⟨srest, h2⟩ := drop_strAll es k e h
  by_cases h0 : n = []
  · simp [offOf, nameOf, hne, h0]
  · have e1 : offOf (1 + room (es.take k)) e = room (es.take k) + 1 := by
      simp [offOf, nameOf, hne, h0]; omega
    have e2 : str e = n ++ [0] := by simp [str, nameOf, hne, h0]
    rw [e1, List.drop_succ_cons, h2, e2, List.append_assoc]
    exact takeWhile_name n srest (hf.name n hne)

theorem read_of (syms strs r : List Nat) (k : Nat) (e : Entry) (off : Nat) (n : List Nat)
    (hd : syms.drop (24 * k) = r) (hne : e.name = some n)
    (hn : (strs.drop off).takeWhile (· ≠ 0) = n) (hb : e.binding ≤ 15 ∧ e.type ≤ 15)
    (h : word 4 r = off ∧ r.getD 4 0 = 16 * e.binding + e.type ∧ r.getD 5 0 = e.other ∧
      word 2 (r.drop 6) = e.sectionIndex ∧ word 8 (r.drop 8) = e.value ∧ word 8 (r.drop 16) = e.size) :
    read syms strs k = e := by
  obtain ⟨h1, h2, h3, h4, h5, h6⟩ := h
  simp only [Spec.read, hd, h1, h2, h3, h4, h5, h6, hn]
  have a1 : (16 * e.binding + e.type) / 16 = e.binding := by omega
  have a2 : (16 * e.binding + e.type) % 16 = e.type := by omega
  rw [a1, a2, ← hne]

theorem read_spec (es : List Entry) (k : Nat) (e : Entry) (h : es[k]? = some e) (hf : Fits e)
    (hn : e.name ≠ none) (hb : e.binding ≤ 15 ∧ e.type ≤ 15) (hr : 1 + room es < 2 ^ 32) :
    read (zeros 24 ++ encAll 1 es) (0 :: strAll es) (k + 1) = e := by
  obtain ⟨rest, h1⟩ := drop_encAll es 1 k e h
  have hz : (zeros 24).length = 24 := by simp [zeros]
  have hd : (zeros 24 ++ encAll 1 es).drop (24 * (k + 1)) =
      enc (offOf (1 + room (es.take k)) e) e ++ rest := by
    rw [show 24 * (k + 1) = (zeros 24).length + 24 * k by rw [hz]; omega, ← List.drop_drop,
      List.drop_left, h1]
  obtain ⟨n, hne⟩ := Option.ne_none_iff_exists'.mp hn
  have hle := room_take_le es k
  have ho : offOf (1 + room (es.take k)) e < 2 ^ 32 := by
    unfold offOf; split <;> omega
  exact read_of _ _ _ _ e _ n hd hne (name_at es k e h hf n hne) hb (fields _ e rest ho hf hb)

theorem getLast_strAll (es : List Entry) : (0 :: strAll es).getLast? = some 0 := by
  induction es with
  | nil => rfl
  | cons e es ih =>
    unfold strAll str
    split
    · simpa using ih
    · rw [List.append_assoc, ← List.cons_append]
      rw [List.getLast?_append]
      simp only [List.cons_append, List.nil_append]
      rw [ih]
      simp

theorem room_append (a b : List Entry) : room (a ++ b) = room a + room b := by
  induction a with
  | nil => simp [room]
  | cons e a ih => rw [List.cons_append, room_cons, room_cons, ih]; omega

theorem strAll_append (a b : List Entry) : strAll (a ++ b) = strAll a ++ strAll b := by
  induction a with
  | nil => rfl
  | cons e a ih => simp [strAll, ih]

theorem encAll_append (c : Nat) (a b : List Entry) :
    encAll c (a ++ b) = encAll c a ++ encAll (c + room a) b := by
  induction a generalizing c with
  | nil => simp [encAll, room]
  | cons e a ih => simp [encAll, ih, room_cons, Nat.add_assoc]

end Nature.Symtab
