import Verif.Symtab.Model

/-!
# What is written
-/

namespace Nature.Symtab

open Spec (room Fits)

def zeros (n : Nat) : List Nat := List.replicate n 0

theorem poke_zeros (pre new : List Nat) (off m : Nat) (h : off = pre.length) :
    poke (pre ++ zeros (new.length + m)) off new = .ok (pre ++ new ++ zeros m) := by
  subst h
  unfold poke
  rw [if_pos (by simp [zeros])]
  congr 1
  rw [List.take_left, ← List.drop_drop, List.drop_left]
  simp [zeros]

/-- The record of a symbol. -/
def enc (off : Nat) (e : Entry) : List Nat :=
  u32 off ++ [((e.binding <<< 4) ||| e.type) % 256] ++ [e.other] ++ u16 e.sectionIndex ++ u64 e.value ++
    u64 e.size

theorem enc_length (off : Nat) (e : Entry) : (enc off e).length = 24 := by
  simp [enc, u32, u16, u64]

theorem writeSym_zeros (pre : List Nat) (k off m : Nat) (e : Entry) (h : pre.length = k * 24) :
    writeSym (pre ++ zeros (24 + m)) k off e = .ok (pre ++ enc off e ++ zeros m) := by
  unfold writeSym
  have h1 := poke_zeros pre (u32 off) (k * 24) (20 + m) h.symm
  have h2 := poke_zeros (pre ++ u32 off) [((e.binding <<< 4) ||| e.type) % 256] (k * 24 + 4) (19 + m)
    (by simp [u32, h])
  have h3 := poke_zeros (pre ++ u32 off ++ [((e.binding <<< 4) ||| e.type) % 256]) [e.other] (k * 24 + 5)
    (18 + m) (by simp [u32, h])
  have h4 := poke_zeros (pre ++ u32 off ++ [((e.binding <<< 4) ||| e.type) % 256] ++ [e.other])
    (u16 e.sectionIndex) (k * 24 + 6) (16 + m) (by simp [u32, h])
  have h5 := poke_zeros (pre ++ u32 off ++ [((e.binding <<< 4) ||| e.type) % 256] ++ [e.other] ++
    u16 e.sectionIndex) (u64 e.value) (k * 24 + 8) (8 + m) (by simp [u32, u16, h])
  have h6 := poke_zeros (pre ++ u32 off ++ [((e.binding <<< 4) ||| e.type) % 256] ++ [e.other] ++
    u16 e.sectionIndex ++ u64 e.value) (u64 e.size) (k * 24 + 16) m (by simp [u32, u16, u64, h])
  have e1 : (u32 off).length + (20 + m) = 24 + m := by simp [u32]; omega
  have e2 : [((e.binding <<< 4) ||| e.type) % 256].length + (19 + m) = 20 + m := by simp; omega
  have e3 : [e.other].length + (18 + m) = 19 + m := by simp; omega
  have e4 : (u16 e.sectionIndex).length + (16 + m) = 18 + m := by simp [u16]; omega
  have e5 : (u64 e.value).length + (8 + m) = 16 + m := by simp [u64, u32]; omega
  have e6 : (u64 e.size).length + m = 8 + m := by simp [u64, u32]
  rw [e1] at h1; rw [e2] at h2; rw [e3] at h3; rw [e4] at h4; rw [e5] at h5; rw [e6] at h6
  simp only [h1, h2, h3, h4, h5, h6, bind, Except.bind]
  simp [enc]

/-- The name of a symbol as bytes. -/
def nameOf (e : Entry) : List Nat := e.name.getD []

/-- The bytes of a name in the string table. -/
def str (e : Entry) : List Nat := if nameOf e = [] then [] else nameOf e ++ [0]

/-- The offset of the name of a symbol when the next free byte is `c`. -/
def offOf (c : Nat) (e : Entry) : Nat := if nameOf e = [] then 0 else c

/-- The records of symbols. -/
def encAll : Nat → List Entry → List Nat
  | _, [] => []
  | c, e :: es => enc (offOf c e) e ++ encAll (c + (str e).length) es

/-- The string table without its first byte. -/
def strAll : List Entry → List Nat
  | [] => []
  | e :: es => str e ++ strAll es

theorem room_cons (e : Entry) (es : List Entry) : room (e :: es) = (str e).length + room es := by
  obtain ⟨n, _⟩ := e
  rcases n with _ | _ | ⟨b, n⟩ <;> simp [room, str, nameOf]

theorem strAll_length (es : List Entry) : (strAll es).length = room es := by
  induction es with
  | nil => rfl
  | cons e es ih => rw [room_cons]; simp [strAll, ih]

theorem encAll_length (c : Nat) (es : List Entry) : (encAll c es).length = es.length * 24 := by
  induction es generalizing c with
  | nil => rfl
  | cons e es ih => simp [encAll, ih, enc_length]; omega

theorem writeEntries_spec (es : List Entry) (hn : ∀ e ∈ es, e.name ≠ none) (i k c m q : Nat)
    (syms strs : List Nat) (h1 : syms.length = k * 24) (h2 : strs.length = c)
    (h3 : c + room es < 2 ^ 32) :
    match writeEntries es i k ⟨syms ++ zeros (es.length * 24 + m), strs ++ zeros (room es + q), c⟩ with
    | .ok s => (∀ e ∈ es, e.binding ≤ 15 ∧ e.type ≤ 15) ∧
        s = ⟨syms ++ encAll c es ++ zeros m, strs ++ strAll es ++ zeros q, c + room es⟩
    | .error err => ∃ j e, err = .invalidInfo (i + j) ∧ es[j]? = some e ∧
        (e.binding > 15 ∨ e.type > 15) ∧
        ∀ j' e', j' < j → es[j']? = some e' → e'.binding ≤ 15 ∧ e'.type ≤ 15 := by
  induction es generalizing i k c syms strs with
  | nil => simp [writeEntries, encAll, strAll, room]
  | cons e es ih =>
    rw [room_cons] at h3
    rw [writeEntries]
    by_cases hb : e.binding > 15 ∨ e.type > 15
    · rw [if_pos hb]
      exact ⟨0, e, by simp, by simp, hb, by intro j' e' h; omega⟩
    · rw [if_neg hb]
      obtain ⟨n, hne⟩ := Option.ne_none_iff_exists'.mp (hn e (by simp))
      have hname : writeName ⟨syms ++ zeros ((e :: es).length * 24 + m),
          strs ++ zeros (room (e :: es) + q), c⟩ e =
          .ok (offOf c e, ⟨syms ++ zeros ((e :: es).length * 24 + m),
            strs ++ str e ++ zeros (room es + q), c + (str e).length⟩) := by
        unfold writeName
        rw [hne]
        simp only
        by_cases h0 : n = []
        · rw [if_pos h0]
          simp [offOf, nameOf, hne, h0, str, room_cons]
        · rw [if_neg h0]
          have hs : str e = n ++ [0] := by simp [str, nameOf, hne, h0]
          have := poke_zeros strs (n ++ [0]) c (room es + q) h2.symm
          rw [room_cons, hs, Nat.add_assoc, this]
          have ho : offOf c e = c % 2 ^ 32 := by
            rw [Nat.mod_eq_of_lt (by omega)]
            simp [offOf, nameOf, hne, h0]
          simp [ho]
      rw [hname]
      simp only
      have hl : (e :: es).length * 24 + m = 24 + (es.length * 24 + m) := by simp; omega
      rw [hl, writeSym_zeros syms k _ _ e h1]
      simp only
      have := ih (fun x hx => hn x (by simp [hx])) (i + 1) (k + 1) (c + (str e).length)
        (syms ++ enc (offOf c e) e) (strs ++ str e) (by simp [h1, enc_length]; omega) (by simp [h2]) (by omega)
      generalize writeEntries es (i + 1) (k + 1) _ = r at this ⊢
      rcases r with err | s
      · simp only at this ⊢
        obtain ⟨j, e', a1, a2, a3, a4⟩ := this
        refine ⟨j + 1, e', by rw [a1]; congr 1; omega, by simpa using a2, a3, ?_⟩
        intro j' e'' hj he
        rcases j' with _ | j'
        · simp only [List.getElem?_cons_zero, Option.some.injEq] at he
          subst he; omega
        · exact a4 j' e'' (by omega) (by simpa using he)
      · simp only at this ⊢
        obtain ⟨a1, a2⟩ := this
        refine ⟨?_, ?_⟩
        · intro x hx
          rcases List.mem_cons.mp hx with rfl | hx
          · omega
          · exact a1 x hx
        · rw [a2, room_cons]
          simp [encAll, strAll, Nat.add_assoc]

theorem measure_spec (es : List Entry) (i size : Nat) (hs : size < 2 ^ 32) :
    match measure es i size with
    | .ok n => n = size + room es ∧ n < 2 ^ 32 ∧ ∀ e ∈ es, e.name ≠ none
    | .error err => ∃ j, j < es.length ∧
        ((err = .invalidArgument (i + j) ∧ ∃ e, es[j]? = some e ∧ e.name = none) ∨
         (err = .stringOverflow (i + j) ∧ size + room (es.take (j + 1)) ≥ 2 ^ 32)) := by
  induction es generalizing i size with
  | nil => simp [measure, room, hs]
  | cons e es ih =>
    rw [measure]
    rcases hn : e.name with _ | n
    · exact ⟨0, by simp, Or.inl ⟨by simp, e, by simp, hn⟩⟩
    · simp only
      have lift : ∀ size', size' = size + (str e).length → size' < 2 ^ 32 →
          match measure es (i + 1) size' with
          | .ok n => n = size + room (e :: es) ∧ n < 2 ^ 32 ∧ ∀ x ∈ e :: es, x.name ≠ none
          | .error err => ∃ j, j < (e :: es).length ∧
              ((err = .invalidArgument (i + j) ∧ ∃ x, (e :: es)[j]? = some x ∧ x.name = none) ∨
               (err = .stringOverflow (i + j) ∧ size + room ((e :: es).take (j + 1)) ≥ 2 ^ 32)) := by
        intro size' hz hlt
        have := ih (i + 1) size' hlt
        generalize measure es (i + 1) size' = r at this ⊢
        rcases r with err | n'
        · simp only at this ⊢
          obtain ⟨j, hj, a⟩ := this
          refine ⟨j + 1, by simp; omega, ?_⟩
          rcases a with ⟨a, x, b1, b2⟩ | ⟨a, b⟩
          · exact Or.inl ⟨by rw [a]; congr 1; omega, x, by simpa using b1, b2⟩
          · refine Or.inr ⟨by rw [a]; congr 1; omega, ?_⟩
            rw [List.take_succ_cons, room_cons]; omega
        · simp only at this ⊢
          refine ⟨by rw [room_cons]; omega, this.2.1, ?_⟩
          intro x hx
          rcases List.mem_cons.mp hx with rfl | hx
          · simp [hn]
          · exact this.2.2 x hx
      by_cases h0 : n = []
      · rw [if_pos h0]
        exact lift size (by simp [str, nameOf, hn, h0]) hs
      · rw [if_neg h0]
        have hl : (str e).length = n.length + 1 := by simp [str, nameOf, hn, h0]
        have over : size + (n.length + 1) ≥ 2 ^ 32 → ∃ j, j < (e :: es).length ∧
              ((Err.stringOverflow i = .invalidArgument (i + j) ∧ ∃ x, (e :: es)[j]? = some x ∧ x.name = none) ∨
               (Err.stringOverflow i = .stringOverflow (i + j) ∧
                size + room ((e :: es).take (j + 1)) ≥ 2 ^ 32)) := by
          intro h
          refine ⟨0, by simp, Or.inr ⟨by simp, ?_⟩⟩
          rw [List.take_succ_cons, room_cons]; omega
        by_cases hm : n.length = sizeMax
        · rw [if_pos hm]
          exact over (by simp only [sizeMax] at hm; omega)
        · rw [if_neg hm]
          unfold addSize
          by_cases ha : size > sizeMax - (n.length + 1)
          · rw [if_pos ha]
            exact over (by simp only [sizeMax] at ha; omega)
          · rw [if_neg ha]
            simp only
            by_cases hb : size + (n.length + 1) > u32Max
            · rw [if_pos hb]
              exact over (by simp only [u32Max] at hb; omega)
            · rw [if_neg hb]
              exact lift _ (by omega) (by simp only [u32Max] at hb; omega)

end Nature.Symtab
