import Verif.EhHdr.Model
import Verif.EhHdr.Spec

/-!
# What is written, and how it is read
-/

namespace Nature.EhHdr

open Spec (word address Near)

theorem poke_drop (buf pre new : List Nat) (off : Nat) (ho : off = pre.length)
    (h : pre.length + new.length ≤ buf.length) :
    poke (pre ++ buf.drop off) off new = .ok ((pre ++ new) ++ buf.drop (off + new.length)) := by
  subst ho
  unfold poke
  rw [if_pos (by simp; omega)]
  congr 1
  rw [List.take_left, ← List.drop_drop, List.drop_left, List.drop_drop]

/-- The fixed part. -/
def fixed (pointer : Int) (count : Nat) : List Nat :=
  [1, 0x1b, 0x03, 0x3b] ++ u32 (cast pointer) ++ u32 (count % 2 ^ 32)

theorem fixed_length (p : Int) (c : Nat) : (fixed p c).length = 12 := by simp [fixed, u32]

theorem writeFixed_ok (buf : List Nat) (p : Int) (c : Nat) (h : 12 ≤ buf.length) :
    writeFixed buf p c = .ok (fixed p c ++ buf.drop 12) := by
  have h0 := poke_drop buf [] [1] 0 (by simp) (by simp; omega)
  have h1 := poke_drop buf [1] [0x1b] 1 (by simp) (by simp; omega)
  have h2 := poke_drop buf [1, 0x1b] [0x03] 2 (by simp) (by simp; omega)
  have h3 := poke_drop buf [1, 0x1b, 0x03] [0x3b] 3 (by simp) (by simp; omega)
  have h4 := poke_drop buf [1, 0x1b, 0x03, 0x3b] (u32 (cast p)) 4 (by simp) (by simp [u32]; omega)
  have h5 := poke_drop buf ([1, 0x1b, 0x03, 0x3b] ++ u32 (cast p)) (u32 (c % 2 ^ 32)) 8 (by simp [u32])
    (by simp [u32]; omega)
  have l : ∀ v, (u32 v).length = 4 := by intro v; simp [u32]
  rw [List.drop_zero, List.nil_append] at h0
  simp only [List.length_singleton, List.nil_append, Nat.zero_add, l, List.cons_append] at h0 h1 h2 h3 h4 h5
  unfold writeFixed
  simp only [h0, h1, h2, h3, h4, h5, bind, Except.bind]
  simp [fixed]

/-- The bytes of the rows. -/
def encRows : List (Int × Int) → List Nat
  | [] => []
  | d :: ds => u32 (cast d.1) ++ u32 (cast d.2) ++ encRows ds

theorem encRows_length (ds : List (Int × Int)) : (encRows ds).length = 8 * ds.length := by
  induction ds with
  | nil => rfl
  | cons d ds ih => simp [encRows, u32, ih]; omega

theorem writeRows_ok (buf : List Nat) (ds : List (Int × Int)) (i : Nat) (pre : List Nat)
    (h1 : pre.length = 12 + i * 8) (h2 : 12 + (i + ds.length) * 8 ≤ buf.length) :
    writeRows i ds (pre ++ buf.drop (12 + i * 8)) =
      .ok (pre ++ encRows ds ++ buf.drop (12 + (i + ds.length) * 8)) := by
  induction ds generalizing i pre with
  | nil => simp [writeRows, encRows]
  | cons d ds ih =>
    have l : ∀ v, (u32 v).length = 4 := by intro v; simp [u32]
    simp only [List.length_cons] at h2
    have a := poke_drop buf pre (u32 (cast d.1)) (12 + i * 8) h1.symm (by rw [l]; omega)
    have b := poke_drop buf (pre ++ u32 (cast d.1)) (u32 (cast d.2)) (12 + i * 8 + 4)
      (by simp [l, h1]) (by simp only [List.length_append, l]; omega)
    rw [l] at a b
    rw [writeRows, a]
    simp only
    rw [b]
    simp only
    have := ih (i + 1) (pre ++ u32 (cast d.1) ++ u32 (cast d.2)) (by simp [l, h1]; omega) (by omega)
    rw [show 12 + i * 8 + 4 + 4 = 12 + (i + 1) * 8 by omega, this]
    simp only [encRows, List.append_assoc, List.length_cons]
    rw [show i + 1 + ds.length = i + (ds.length + 1) by omega]

theorem relative_some (t b : Nat) (x : Int) (h : relative t b = some x) :
    -(2 ^ 31 : Int) ≤ x ∧ x < 2 ^ 31 ∧ (b : Int) + x = t := by
  unfold relative at h
  split at h
  · simp only at h
    split at h
    · simp at h
    · obtain rfl := Option.some.inj h
      omega
  · simp only at h
    split at h
    · simp at h
    · split at h
      · obtain rfl := Option.some.inj h
        omega
      · obtain rfl := Option.some.inj h
        omega

theorem relative_none (t b : Nat) (h : relative t b = none) : ¬ Near t b := by
  unfold relative at h
  unfold Near
  split at h
  · simp only at h
    split at h
    · omega
    · simp at h
  · simp only at h
    split at h
    · omega
    · split at h <;> simp at h

theorem word_u32 (v : Nat) (h : v < 2 ^ 32) (rest : List Nat) : word 4 (u32 v ++ rest) = v := by
  simp only [u32, word, List.cons_append, List.nil_append, Nat.shiftRight_eq_div_pow]
  omega

theorem address_eq (base t off : Nat) (bytes rest : List Nat) (x : Int)
    (hd : bytes.drop off = u32 (cast x) ++ rest)
    (h : -(2 ^ 31 : Int) ≤ x ∧ x < 2 ^ 31 ∧ (base : Int) + x = t) (ht : t < 2 ^ 64) :
    address base bytes off = t := by
  obtain ⟨h1, h2, h3⟩ := h
  have hc : cast x < 2 ^ 32 := by unfold cast; omega
  have hw : word 4 (bytes.drop off) = cast x := by rw [hd, word_u32 _ hc]
  have hx : (if cast x < 2 ^ 31 then (cast x : Int) else (cast x : Int) - 2 ^ 32) = x := by
    unfold cast
    split <;> omega
  simp only [address, hw, hx, h3]
  omega

/-- The distances of the rows. -/
def Dist (hdr : Nat) (w : Work) (d : Int × Int) : Prop :=
  (-(2 ^ 31 : Int) ≤ d.1 ∧ d.1 < 2 ^ 31 ∧ (hdr : Int) + d.1 = w.firstPc) ∧
  (-(2 ^ 31 : Int) ≤ d.2 ∧ d.2 < 2 ^ 31 ∧ (hdr : Int) + d.2 = w.fdeAddress)

theorem distances_spec (hdr : Nat) (ws : List Work) :
    match distances hdr ws with
    | .ok ds => ds.length = ws.length ∧
        ∀ (i : Nat) (w : Work), ws[i]? = some w → ∃ d, ds[i]? = some d ∧ Dist hdr w d
    | .error err => ∃ w ∈ ws, (err = .firstPcRange w.originalIndex ∧ ¬ Near w.firstPc hdr) ∨
        (err = .fdeRange w.originalIndex ∧ ¬ Near w.fdeAddress hdr) := by
  induction ws with
  | nil => simp [distances]
  | cons w ws ih =>
    rw [distances]
    rcases ha : relative w.firstPc hdr with _ | a
    · exact ⟨w, by simp, Or.inl ⟨rfl, relative_none _ _ ha⟩⟩
    · simp only
      rcases hb : relative w.fdeAddress hdr with _ | b
      · exact ⟨w, by simp, Or.inr ⟨rfl, relative_none _ _ hb⟩⟩
      · simp only
        rcases hr : distances hdr ws with err | ds
        · rw [hr] at ih
          obtain ⟨w', hw, h⟩ := ih
          exact ⟨w', by simp [hw], h⟩
        · rw [hr] at ih
          simp only at ih ⊢
          refine ⟨by simp [ih.1], ?_⟩
          intro i w' hw
          rcases i with _ | i
          · simp only [List.getElem?_cons_zero, Option.some.injEq] at hw
            subst hw
            exact ⟨(a, b), by simp, relative_some _ _ _ ha, relative_some _ _ _ hb⟩
          · obtain ⟨d, h1, h2⟩ := ih.2 i w' (by simpa using hw)
            exact ⟨d, by simpa using h1, h2⟩

theorem drop_encRows (ds : List (Int × Int)) (i : Nat) (d : Int × Int) (h : ds[i]? = some d) :
    ∃ rest, (encRows ds).drop (8 * i) = u32 (cast d.1) ++ (u32 (cast d.2) ++ rest) := by
  induction ds generalizing i with
  | nil => simp at h
  | cons a ds ih =>
    rcases i with _ | i
    · simp only [List.getElem?_cons_zero, Option.some.injEq] at h
      subst h
      exact ⟨encRows ds, by simp [encRows]⟩
    · obtain ⟨rest, hr⟩ := ih i (by simpa using h)
      refine ⟨rest, ?_⟩
      have l : (u32 (cast a.1) ++ u32 (cast a.2)).length = 8 := by simp [u32]
      rw [encRows, show 8 * (i + 1) = (u32 (cast a.1) ++ u32 (cast a.2)).length + 8 * i by rw [l]; omega,
        ← List.drop_drop, List.drop_left, hr]

theorem drop_append_le {α : Type} (a b : List α) (n : Nat) (h : n ≤ a.length) :
    (a ++ b).drop n = a.drop n ++ b := List.drop_append_of_le_length h

theorem drop_row (fx tail : List Nat) (hf : fx.length = 12) (ds : List (Int × Int)) (i : Nat)
    (d : Int × Int) (h : ds[i]? = some d) :
    (∃ rest, (fx ++ encRows ds ++ tail).drop (12 + 8 * i) = u32 (cast d.1) ++ rest) ∧
    ∃ rest, (fx ++ encRows ds ++ tail).drop (12 + 8 * i + 4) = u32 (cast d.2) ++ rest := by
  obtain ⟨rest, hr⟩ := drop_encRows ds i d h
  have hi := (List.getElem?_eq_some_iff.mp h).1
  have e : (fx ++ encRows ds ++ tail).drop (12 + 8 * i) =
      u32 (cast d.1) ++ (u32 (cast d.2) ++ (rest ++ tail)) := by
    rw [← hf, ← List.drop_drop, List.append_assoc, List.drop_left,
      drop_append_le _ _ _ (by rw [encRows_length]; omega), hr]
    simp
  refine ⟨⟨_, e⟩, rest ++ tail, ?_⟩
  rw [← List.drop_drop, e]
  exact List.drop_left (l₁ := u32 (cast d.1))

theorem fill_map (i : Nat) (es : List (Nat × Nat)) :
    (fill i es).map (fun w => (w.firstPc, w.fdeAddress)) = es := by
  induction es generalizing i with
  | nil => rfl
  | cons e es ih => simp [fill, ih]

theorem fill_index (i : Nat) (es : List (Nat × Nat)) (w : Work) (h : w ∈ fill i es) :
    ∃ j, w.originalIndex = i + j ∧ es[j]? = some (w.firstPc, w.fdeAddress) := by
  induction es generalizing i with
  | nil => simp [fill] at h
  | cons e es ih =>
    rw [fill] at h
    rcases List.mem_cons.mp h with rfl | h
    · exact ⟨0, by simp, by simp⟩
    · obtain ⟨j, h1, h2⟩ := ih (i + 1) h
      exact ⟨j + 1, by omega, by simpa using h2⟩

theorem compare_le (a b : Work) (h : compare a b ≤ 0) : a.firstPc ≤ b.firstPc := by
  unfold compare at h
  split at h
  · omega
  · split at h
    · simp at h
    · omega

end Nature.EhHdr
