import Verif.Archive.Walk

/-!
# Thin archives
-/

namespace Nature.Archive

open Spec (dec fill record ThinFits)

/-- The header of a member that is not in the archive. -/
theorem recordAt_thin (pre rest name content info : List Nat)
    (hk : memberKind (fill 16 name) = .regular) (hbs : isBsd (rtrim (fill 16 name)) = false)
    (hn : name.length ≤ 16) (hi : info.length = 32) (hc : content.length < 10 ^ 10) :
    recordAt (pre ++ header name content info ++ rest) pre.length true =
      .ok ⟨fill 16 name, pre.length + 60, content.length,
        (pre ++ header name content info).length, .regular, false⟩ := by
  have hh := header_length name content info hn hi hc
  have hf := fill_length 16 name hn
  have hd := fill_length 10 (dec content.length) (dec_length 9 _ hc)
  have hs : slice (pre ++ header name content info ++ rest) pre.length 60 =
      .ok (header name content info) := by
    have := slice_mid pre (header name content info) rest
    rwa [hh] at this
  have h58 : (header name content info).getD 58 0 = 96 := by
    unfold header
    rw [List.getD_eq_getElem?_getD, List.getElem?_append_right (by simp [hf, hd, hi])]
    simp [hf, hd, hi]
  have h59 : (header name content info).getD 59 0 = 10 := by
    unfold header
    rw [List.getD_eq_getElem?_getD, List.getElem?_append_right (by simp [hf, hd, hi])]
    simp [hf, hd, hi]
  have hsz : ((header name content info).drop 48).take 10 = fill 10 (dec content.length) := by
    unfold header
    have e : fill 16 name ++ info ++ fill 10 (dec content.length) ++ [96, 10] =
        (fill 16 name ++ info) ++ (fill 10 (dec content.length) ++ [96, 10]) := by simp
    have e2 : (fill 16 name ++ info).length = 48 := by simp [hf, hi]
    rw [e, ← e2, List.drop_left, List.take_append_of_le_length (by omega),
      List.take_of_length_le (by omega)]
  have hnm : (header name content info).take 16 = fill 16 name := by
    unfold header
    simp only [List.append_assoc]
    rw [List.take_append_of_le_length (by omega), List.take_of_length_le (by omega)]
  have hlen : (pre ++ header name content info ++ rest).length = pre.length + 60 + rest.length := by
    simp [hh]; omega
  unfold recordAt
  rw [if_neg (by omega), if_neg (by omega), hs]
  simp only
  rw [if_neg (by rw [h58, h59]; simp), hsz, decimal_fill 10 _ (by omega)]
  simp only
  unfold recordBody
  simp only [hnm, hk, hbs]
  rw [show (pre ++ header name content info).length = pre.length + 60 by simp [hh]]
  rfl

theorem memberName_thin (bytes table before after name : List Nat) (po ps no : Nat)
    (h1 : name ≠ []) (h10 : 10 ∉ name) (h0 : 0 ∉ name)
    (ht : table = before ++ (name ++ [47, 10]) ++ after)
    (hb : before = [] ∨ ∃ s, before = s ++ [10]) (hl : before.length < 2 ^ 64) :
    memberName bytes ⟨fill 16 (47 :: dec before.length), po, ps, no, .regular, false⟩ table true =
      .ok ⟨some name, po, ps⟩ := by
  unfold memberName
  simp only [fill_long]
  rw [if_neg (by simp), if_neg (by simp [isBsd]), if_pos]
  · simp only [offsetField_dec, longName_at table name before after ht hb h1 h10 h0 hl]
  · obtain ⟨d, s, e, hd⟩ := dec_first before.length
    rw [e]
    simp; omega

theorem walk_thin (bytes pre before table : List Nat) (ms : List Spec.Outside)
    (hf : ∀ m ∈ ms, ThinFits m) (hb : bytes = pre ++ Spec.thinMembers before.length ms)
    (ht : table = before ++ Spec.thinTable ms) (hbe : before = [] ∨ ∃ s, before = s ++ [10])
    (hp : before.length + (Spec.thinTable ms).length < 10 ^ 10) (fuel : Nat)
    (hfuel : bytes.length - pre.length < fuel) :
    walk bytes true table fuel pre.length = .ok (ms.map fun m => (m.path, [])) ∧
      ∀ t, findTable bytes true fuel pre.length t = .ok t := by
  induction ms generalizing pre before fuel with
  | nil =>
    obtain ⟨n, rfl⟩ : ∃ n, fuel = n + 1 := ⟨fuel - 1, by omega⟩
    constructor
    · rw [walk, if_neg]
      · rfl
      · simp [hb, Spec.thinMembers]
    · intro t
      rw [findTable, if_neg]
      simp [hb, Spec.thinMembers]
  | cons m ms ih =>
    obtain ⟨n, rfl⟩ : ∃ n, fuel = n + 1 := ⟨fuel - 1, by omega⟩
    obtain ⟨h1, h10, h0, hi, hc⟩ := hf m (by simp)
    have hms : ∀ x ∈ ms, ThinFits x := fun x hx => hf x (by simp [hx])
    simp only [Spec.thinTable] at hp ht
    rw [List.length_append] at hp
    have hn : (47 :: dec before.length).length ≤ 16 := by
      have := dec_length 9 before.length (by omega)
      simp; omega
    have hrl : (List.replicate m.size 0).length < 10 ^ 10 := by simpa using hc
    have hh := header_length (47 :: dec before.length) (List.replicate m.size 0) m.info hn hi hrl
    have e : before.length + m.path.length + 2 = (before ++ (m.path ++ [47, 10])).length := by
      simp; omega
    have hb' : bytes = pre ++ header (47 :: dec before.length) (List.replicate m.size 0) m.info ++
        Spec.thinMembers (before ++ (m.path ++ [47, 10])).length ms := by
      rw [hb, ← e]; simp [Spec.thinMembers, header]
    have hlen := congrArg List.length hb'
    simp only [List.length_append] at hlen
    have ht' := ht
    rw [← List.append_assoc] at ht'
    obtain ⟨iw, it⟩ := ih _ (before ++ (m.path ++ [47, 10])) hms hb' ht'
      (Or.inr ⟨before ++ (m.path ++ [47]), by simp⟩) (by rw [← e]; simp at hp; omega) n (by
        simp only [List.length_append] at hlen ⊢
        omega)
    have hr := recordAt_thin pre (Spec.thinMembers (before ++ (m.path ++ [47, 10])).length ms)
      (47 :: dec before.length) (List.replicate m.size 0) m.info (kind_long _)
      (by rw [fill_long]; rfl) hn hi hrl
    rw [← hb'] at hr
    constructor
    · rw [walk, if_pos (by omega), hr]
      simp only [memberName_thin bytes table before (Spec.thinTable ms) m.path _ _ _ h1 h10 h0
        ht' hbe (by omega), if_true, iw, List.map_cons]
    · intro t
      rw [findTable, if_pos (by omega), hr]
      simp only
      rw [if_neg (by simp)]
      exact it t

/-! ## Paths -/

theorem pathIsAbsolute_iff (path : List Nat) : pathIsAbsolute path = true ↔ Spec.Absolute path := by
  unfold pathIsAbsolute Spec.Absolute
  constructor
  · intro h
    split at h
    · simp at h
    · split at h
      · rename_i hx
        rcases path with _ | ⟨a, s⟩
        · simp at hx
        · left; refine ⟨s, ?_⟩
          simpa using hx
      · right
        simp only [decide_eq_true_eq] at h
        obtain ⟨ha, hb, hc⟩ := h
        rcases path with _ | ⟨a, _ | ⟨b, _ | ⟨c, s⟩⟩⟩
        · simp at hb
        · simp at hb
        · simp at hc
        · refine ⟨a, s, by simpa using ha, ?_⟩
          have hb' : b = 58 := by simpa using hb
          have hc' : c = 47 ∨ c = 92 := by simpa using hc
          rcases hc' with rfl | rfl
          · left; rw [hb']
          · right; rw [hb']
  · rintro (⟨s, rfl | rfl⟩ | ⟨d, s, hd, rfl | rfl⟩)
    · simp
    · simp
    · simp only [List.getD_cons_zero, List.getD_cons_succ]
      rw [if_neg (by omega), if_neg (by omega)]
      simpa using hd
    · simp only [List.getD_cons_zero, List.getD_cons_succ]
      rw [if_neg (by omega), if_neg (by omega)]
      simpa using hd

theorem strrchr_none (s : List Nat) (c : Nat) (h : c ∉ s) : strrchr s c = none := by
  unfold strrchr
  rw [Option.map_eq_none_iff, List.findIdx?_eq_none_iff]
  intro x hx
  simp only [beq_eq_false_iff_ne]; rintro rfl
  exact h (by simpa using hx)

theorem strrchr_last (a b : List Nat) (c : Nat) (h : c ∉ b) :
    strrchr (a ++ c :: b) c = some a.length := by
  unfold strrchr
  have : (a ++ c :: b).reverse = b.reverse ++ c :: a.reverse := by simp
  rw [this, findIdx_first _ _ _ _ _ (by simp)]
  · simp
  · intro x hx
    simp only [beq_eq_false_iff_ne]; rintro rfl
    exact h (by simpa using hx)

theorem strrchr_before (a b : List Nat) (c : Nat) (h : c ∉ b) (p : Nat)
    (hs : strrchr (a ++ b) c = some p) : p < a.length := by
  unfold strrchr at hs
  rw [Option.map_eq_some_iff] at hs
  obtain ⟨i, hi, rfl⟩ := hs
  rw [List.reverse_append] at hi
  have h1 := findIdx_ge _ _ _ _ (by
    intro x hx
    simp only [beq_eq_false_iff_ne]; rintro rfl
    exact h (by simpa using hx)) hi
  have h2 := List.findIdx?_eq_some_iff_findIdx_eq.mp hi
  simp at h1 h2 ⊢
  omega

end Nature.Archive
