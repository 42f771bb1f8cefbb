import Verif.Symtab.Read

/-!
# C109: the symbol table of a linked program has every symbol, as it was given
-/

namespace Nature.Symtab

open Spec (room Fits read)

/-- What `build` gives, for all symbols: a table from which every symbol is read back, locals first, with
nothing written outside the buffers; or an error that names the symbol at fault. -/
theorem C109_build (locals globals : List Entry) (hf : ∀ e ∈ locals ++ globals, Fits e) :
    match build locals globals with
    | .ok t =>
        (∀ k e, (locals ++ globals)[k]? = some e → read t.symbols t.strings (k + 1) = e) ∧
        (∀ k, k < 24 → t.symbols[k]? = some 0) ∧
        t.symbols.length = 24 * (locals.length + globals.length + 1) ∧
        t.symbolCount = locals.length + globals.length + 1 ∧
        t.firstGlobal = locals.length + 1 ∧
        t.strings.length = 1 + room (locals ++ globals) ∧
        t.strings.head? = some 0 ∧ t.strings.getLast? = some 0
    | .error (.invalidArgument i) => ∃ e, (locals ++ globals)[i]? = some e ∧ e.name = none
    | .error (.invalidInfo i) => ∃ e, (locals ++ globals)[i]? = some e ∧ (e.binding ≥ 16 ∨ e.type ≥ 16)
    | .error (.stringOverflow i) => 1 + room ((locals ++ globals).take (i + 1)) ≥ 2 ^ 32
    | .error .countOverflow => locals.length ≥ 2 ^ 32 - 1 ∨ locals.length + globals.length ≥ 2 ^ 64 - 1
    | .error .sizeOverflow => 24 * (locals.length + globals.length + 1) ≥ 2 ^ 64
    | .error .outside => False := by
  unfold build
  by_cases hc : locals.length > u32Max - 1 ∨ globals.length > sizeMax - 1 ∨
      locals.length > sizeMax - 1 - globals.length
  · rw [if_pos hc]
    simp only [u32Max, sizeMax] at hc
    simp only
    omega
  · rw [if_neg hc]
    simp only [u32Max, sizeMax] at hc
    simp only
    by_cases h : locals.length + globals.length + 1 > sizeMax / 24
    · rw [if_pos h]
      simp only [sizeMax] at h
      simp only
      omega
    · rw [if_neg h]
      have m1 := measure_spec locals 0 1 (by omega)
      rcases r1 : measure locals 0 1 with err | n1
      · rw [r1] at m1
        simp only at m1 ⊢
        obtain ⟨j, hj, ⟨rfl, e, a1, a2⟩ | ⟨rfl, a⟩⟩ := m1
        · simp only [Nat.zero_add]
          exact ⟨e, by rw [List.getElem?_append_left hj]; exact a1, a2⟩
        · simp only [Nat.zero_add]
          rw [List.take_append_of_le_length (by omega)]
          exact a
      · rw [r1] at m1
        simp only at m1 ⊢
        obtain ⟨b1, b2, b3⟩ := m1
        have m2 := measure_spec globals locals.length n1 b2
        rcases r2 : measure globals locals.length n1 with err | n2
        · rw [r2] at m2
          simp only at m2 ⊢
          obtain ⟨j, hj, ⟨rfl, e, a1, a2⟩ | ⟨rfl, a⟩⟩ := m2
          · simp only
            refine ⟨e, ?_, a2⟩
            rw [List.getElem?_append_right (by omega), Nat.add_sub_cancel_left]; exact a1
          · simp only
            rw [Nat.add_assoc, List.take_length_add_append, room_append]
            omega
        · rw [r2] at m2
          simp only at m2 ⊢
          obtain ⟨d1, d2, d3⟩ := m2
          have w1 := writeEntries_spec locals b3 0 1 1 (globals.length * 24) (room globals) (zeros 24) [0]
            (by simp [zeros]) (by simp) (by omega)
          have s1 : List.replicate ((locals.length + globals.length + 1) * 24) 0 =
              zeros 24 ++ zeros (locals.length * 24 + globals.length * 24) := by
            simp only [zeros, List.replicate_append_replicate]
            congr 1; omega
          have s2 : List.replicate n2 0 = [0] ++ zeros (room locals + room globals) := by
            rw [show ([0] : List Nat) = List.replicate 1 0 from rfl]
            simp only [zeros, List.replicate_append_replicate]
            congr 1; omega
          rw [s1, s2]
          rcases q1 : writeEntries locals 0 1 ⟨zeros 24 ++ zeros (locals.length * 24 + globals.length * 24),
              [0] ++ zeros (room locals + room globals), 1⟩ with err | st
          · rw [q1] at w1
            simp only at w1 ⊢
            obtain ⟨j, e, rfl, a1, a2, _⟩ := w1
            simp only [Nat.zero_add]
            have hj := (List.getElem?_eq_some_iff.mp a1).1
            exact ⟨e, by rw [List.getElem?_append_left hj]; exact a1, by omega⟩
          · rw [q1] at w1
            simp only at w1 ⊢
            obtain ⟨i1, rfl⟩ := w1
            have w2 := writeEntries_spec globals d3 locals.length (1 + locals.length) (1 + room locals) 0 0
              (zeros 24 ++ encAll 1 locals) ([0] ++ strAll locals)
              (by simp [zeros, encAll_length]; omega) (by simp [strAll_length]; omega) (by omega)
            rw [Nat.add_zero, Nat.add_zero] at w2
            rcases q2 : writeEntries globals locals.length (1 + locals.length)
                ⟨zeros 24 ++ encAll 1 locals ++ zeros (globals.length * 24),
                  [0] ++ strAll locals ++ zeros (room globals), 1 + room locals⟩ with err | st
            · rw [q2] at w2
              simp only at w2 ⊢
              obtain ⟨j, e, rfl, a1, a2, _⟩ := w2
              simp only
              refine ⟨e, ?_, by omega⟩
              rw [List.getElem?_append_right (by omega), Nat.add_sub_cancel_left]; exact a1
            · rw [q2] at w2
              simp only at w2 ⊢
              obtain ⟨i2, rfl⟩ := w2
              have t1 : zeros 24 ++ encAll 1 locals ++ encAll (1 + room locals) globals ++ zeros 0 =
                  zeros 24 ++ encAll 1 (locals ++ globals) := by
                rw [encAll_append]; simp [zeros]
              have t2 : [0] ++ strAll locals ++ strAll globals ++ zeros 0 =
                  0 :: strAll (locals ++ globals) := by
                rw [strAll_append]; simp [zeros]
              simp only [t1, t2]
              refine ⟨?_, ?_, ?_, trivial, ?_, ?_, rfl, ?_⟩
              · intro k e hk
                have hm := List.mem_of_getElem? hk
                refine read_spec _ k e hk (hf e hm) ?_ ?_ (by rw [room_append]; omega)
                · rcases List.mem_append.mp hm with hm | hm
                  · exact b3 e hm
                  · exact d3 e hm
                · rcases List.mem_append.mp hm with hm | hm
                  · exact i1 e hm
                  · exact i2 e hm
              · intro k hk
                have hz : (zeros 24).length = 24 := by simp [zeros]
                rw [List.getElem?_append_left (by omega)]
                unfold zeros
                rw [List.getElem?_replicate, if_pos hk]
              · simp [encAll_length, zeros]; omega
              · rw [Nat.mod_eq_of_lt (by omega : locals.length < 2 ^ 32), Nat.mod_eq_of_lt (by omega)]
              · simp [strAll_length]; omega
              · exact getLast_strAll _

/-- So within the limits of the format the table is always built. -/
theorem C109_accepted (locals globals : List Entry) (hf : ∀ e ∈ locals ++ globals, Fits e)
    (hn : ∀ e ∈ locals ++ globals, e.name ≠ none ∧ e.binding < 16 ∧ e.type < 16)
    (hl : locals.length < 2 ^ 32 - 1) (hc : 24 * (locals.length + globals.length + 1) < 2 ^ 64)
    (hr : 1 + room (locals ++ globals) < 2 ^ 32) : ∃ t, build locals globals = .ok t := by
  have h := C109_build locals globals hf
  rcases hb : build locals globals with err | t
  · exfalso
    rw [hb] at h
    cases err with
    | invalidArgument i =>
      obtain ⟨e, h1, h2⟩ := h
      exact (hn e (List.mem_of_getElem? h1)).1 h2
    | invalidInfo i =>
      obtain ⟨e, h1, h2⟩ := h
      have := (hn e (List.mem_of_getElem? h1)).2
      omega
    | stringOverflow i =>
      have := room_take_le (locals ++ globals) (i + 1)
      simp only at h
      omega
    | countOverflow => simp only at h; omega
    | sizeOverflow => simp only at h; omega
    | outside => exact h
  · exact ⟨t, rfl⟩

/-- Symbols `main` (local), one without a name, and `f` (global). -/
def demoL : List Entry := [⟨some [109, 97, 105, 110], 0, 2, 0, 1, 0x401000, 16⟩, ⟨some [], 0, 3, 0, 1, 0, 0⟩]

def demoG : List Entry := [⟨some [102], 1, 2, 2, 0xfff1, 0xffffffff80000000, 5⟩]

example : (match build demoL demoG with
    | .ok t => some (t.strings, t.firstGlobal, read t.symbols t.strings 3)
    | .error _ => none) = some ([0, 109, 97, 105, 110, 0, 102, 0], 3,
        ⟨some [102], 1, 2, 2, 0xfff1, 0xffffffff80000000, 5⟩) := by decide +kernel

example : ∀ e ∈ demoL ++ demoG, Fits e := by
  intro e he
  simp only [demoL, demoG, List.cons_append, List.nil_append, List.mem_cons, List.not_mem_nil,
    or_false] at he
  rcases he with rfl | rfl | rfl
  all_goals
    refine ⟨?_, ?_, ?_, ?_, ?_, ?_, ?_⟩ <;> first | omega | (intro n hn; obtain rfl := Option.some.inj hn; simp) | simp

example : build demoL [⟨some [102], 16, 2, 2, 0, 0, 0⟩] = .error (.invalidInfo 2) := by rfl

end Nature.Symtab
