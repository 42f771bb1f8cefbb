import Verif.EhHdr.Write
import Verif.EhHdr.Search

/-!
# C110: an unwinder finds the frame description of every address in a linked program
-/

namespace Nature.EhHdr

open Spec (word address rows search Near)

/-- What the C standard says of `qsort` with the comparison of the linker. -/
structure Sorts (qsort : List Work → List Work) : Prop where
  perm : ∀ l, (qsort l).Perm l
  sorted : ∀ l, (qsort l).Pairwise fun a b => compare a b ≤ 0

theorem rows_eq (hdr : Nat) (ws : List Work) (ds : List (Int × Int)) (p : Int) (tail : List Nat)
    (hlen : ds.length = ws.length) (hn : ws.length < 2 ^ 32)
    (hd : ∀ (i : Nat) (w : Work), ws[i]? = some w → ∃ d, ds[i]? = some d ∧ Dist hdr w d)
    (hb : ∀ w ∈ ws, w.firstPc < 2 ^ 64 ∧ w.fdeAddress < 2 ^ 64) :
    rows hdr (fixed p ws.length ++ encRows ds ++ tail) = ws.map fun w => (w.firstPc, w.fdeAddress) := by
  have hc : word 4 ((fixed p ws.length ++ encRows ds ++ tail).drop 8) = ws.length := by
    have : (fixed p ws.length ++ encRows ds ++ tail).drop 8 =
        u32 (ws.length % 2 ^ 32) ++ (encRows ds ++ tail) := by
      simp [fixed, u32]
    rw [this, word_u32 _ (by omega), Nat.mod_eq_of_lt hn]
  unfold rows
  rw [hc]
  apply List.ext_getElem
  · simp
  · intro i h1 h2
    simp only [List.length_map, List.length_range] at h1
    simp only [List.getElem_map, List.getElem_range]
    have hw : ws[i]? = some ws[i] := List.getElem?_eq_getElem h1
    obtain ⟨d, e1, e2, e3⟩ := hd i _ hw
    obtain ⟨⟨r1, q1⟩, ⟨r2, q2⟩⟩ := drop_row (fixed p ws.length) tail (fixed_length _ _) ds i d e1
    obtain ⟨b1, b2⟩ := hb _ (List.getElem_mem h1)
    rw [address_eq hdr _ _ _ r1 d.1 q1 e2 b1, address_eq hdr _ _ _ r2 d.2 q2 e3 b2]

/-- The header is written, or refused, for all tables: when it is written, an unwinder reads the pointer
to `.eh_frame` and all rows back, and its search finds for every address the row that starts last at or
before it; what follows in the output is left alone. -/
theorem C110_header (qsort : List Work → List Work) (hq : Sorts qsort) (output : List Nat)
    (hdr ehFrame : Nat) (entries : List (Nat × Nat)) (hh : hdr < 2 ^ 64) (he : ehFrame < 2 ^ 64)
    (hb : ∀ e ∈ entries, e.1 < 2 ^ 64 ∧ e.2 < 2 ^ 64) :
    match encode qsort output hdr ehFrame entries with
    | .ok bytes =>
        bytes.take 4 = [1, 0x10 + 0x0b, 0x03, 0x30 + 0x0b] ∧
        address (hdr + 4) bytes 4 = ehFrame ∧
        (rows hdr bytes).Perm entries ∧
        bytes.length = output.length ∧
        bytes.drop (12 + 8 * entries.length) = output.drop (12 + 8 * entries.length) ∧
        ∀ pc, match search (rows hdr bytes) pc with
          | .nothing => ∀ e ∈ entries, pc < e.1
          | .row r => r ∈ entries ∧ r.1 ≤ pc ∧ ∀ e ∈ entries, e.1 ≤ pc → e.1 ≤ r.1
          | .abort => False
    | .error .countOverflow => entries.length ≥ 2 ^ 32
    | .error .outputTooSmall => output.length < 12 + 8 * entries.length
    | .error .pointerRange => ¬ Near ehFrame (hdr + 4) ∨ hdr + 4 ≥ 2 ^ 64
    | .error (.firstPcRange i) => ∃ e, entries[i]? = some e ∧ ¬ Near e.1 hdr
    | .error (.fdeRange i) => ∃ e, entries[i]? = some e ∧ ¬ Near e.2 hdr
    | .error .sizeOverflow => False
    | .error .workOverflow => False
    | .error .outside => False := by
  unfold encode size
  by_cases c1 : entries.length > 2 ^ 32 - 1
  · simp only [if_pos c1]; omega
  · simp only [if_neg c1]
    by_cases c2 : entries.length > (2 ^ 64 - 1 - 12) / 8
    · omega
    · simp only [if_neg c2]
      by_cases c3 : output.length < 12 + entries.length * 8
      · simp only [if_pos c3]; omega
      · simp only [if_neg c3]
        by_cases c4 : entries.length > (2 ^ 64 - 1) / 32
        · omega
        · simp only [if_neg c4]
          by_cases c5 : hdr > 2 ^ 64 - 1 - 4
          · simp only [if_pos c5]; omega
          · simp only [if_neg c5]
            rcases hp : relative ehFrame (hdr + 4) with _ | p
            · exact Or.inl (relative_none _ _ hp)
            · simp only
              have hwork : (if entries.length ≠ 0 then qsort (fill 0 entries) else []) =
                  qsort (fill 0 entries) := by
                split
                · rfl
                · rename_i h
                  have h0 : entries = [] := List.length_eq_zero_iff.mp (by omega)
                  have := (hq.perm (fill 0 entries))
                  rw [h0] at this ⊢
                  exact (List.Perm.eq_nil this).symm
              rw [hwork]
              have hperm := hq.perm (fill 0 entries)
              have hsort := hq.sorted (fill 0 entries)
              generalize qsort (fill 0 entries) = ws at hperm hsort ⊢
              have hmap : (ws.map fun w => (w.firstPc, w.fdeAddress)).Perm entries := by
                have := hperm.map fun w => (w.firstPc, w.fdeAddress)
                rwa [fill_map] at this
              have hlen : ws.length = entries.length := by simpa using hmap.length_eq
              have hdist := distances_spec hdr ws
              rcases hd : distances hdr ws with err | ds
              · rw [hd] at hdist
                obtain ⟨w, hw, h⟩ := hdist
                obtain ⟨j, j1, j2⟩ := fill_index 0 entries w (hperm.mem_iff.mp hw)
                rw [Nat.zero_add] at j1
                rcases h with ⟨rfl, h⟩ | ⟨rfl, h⟩
                · exact ⟨_, by rw [j1]; exact j2, h⟩
                · exact ⟨_, by rw [j1]; exact j2, h⟩
              · rw [hd] at hdist
                simp only at hdist ⊢
                obtain ⟨d1, d2⟩ := hdist
                rw [writeFixed_ok output p entries.length (by omega)]
                simp only
                have hw := writeRows_ok output ds 0 (fixed p entries.length) (by rw [fixed_length]; )
                  (by omega)
                simp only [Nat.zero_mul, Nat.add_zero, Nat.zero_add] at hw
                rw [hw]
                simp only
                have hrows := rows_eq hdr ws ds p (output.drop (12 + ds.length * 8)) d1 (by omega) d2 (by
                  intro w hw
                  obtain ⟨j, _, j2⟩ := fill_index 0 entries w (hperm.mem_iff.mp hw)
                  exact hb _ (List.mem_of_getElem? j2))
                rw [hlen] at hrows
                have hfl := fixed_length p entries.length
                refine ⟨?_, ?_, ?_, ?_, ?_, ?_⟩
                · simp [fixed]
                · refine address_eq (hdr + 4) ehFrame 4 _
                    (u32 (entries.length % 2 ^ 32) ++ (encRows ds ++ output.drop (12 + ds.length * 8))) p ?_
                    (relative_some _ _ _ hp) he
                  simp [fixed]
                · rw [hrows]; exact hmap
                · simp only [List.length_append, hfl, encRows_length, List.length_drop]
                  omega
                · have l : (fixed p entries.length ++ encRows ds).length = 12 + 8 * entries.length := by
                    simp only [List.length_append, hfl, encRows_length]; omega
                  rw [← l, List.drop_left, l]
                  congr 1; omega
                · intro pc
                  have hs : Sorted (rows hdr (fixed p entries.length ++ encRows ds ++
                      output.drop (12 + ds.length * 8))) := by
                    rw [hrows]
                    intro i j hij hj
                    simp only [List.length_map] at hj
                    simp only [Spec.start, List.getD_eq_getElem?_getD, List.getElem?_map,
                      List.getElem?_eq_getElem hj, List.getElem?_eq_getElem (Nat.lt_of_le_of_lt hij hj),
                      Option.map_some, Option.getD_some]
                    rcases Nat.lt_or_ge i j with h | h
                    · exact compare_le _ _ (List.pairwise_iff_getElem.mp hsort i j _ hj h)
                    · have : i = j := by omega
                      subst this; exact Nat.le_refl _
                  have := search_spec _ hs pc
                  rw [hrows] at this ⊢
                  generalize search _ pc = r at this ⊢
                  cases r with
                  | nothing => exact fun e he => this e (hmap.mem_iff.mpr he)
                  | row r =>
                    exact ⟨hmap.mem_iff.mp this.1, this.2.1, fun e he => this.2.2 e (hmap.mem_iff.mpr he)⟩
                  | abort => exact this

/-- So the header is written whenever the output has room and all distances fit. -/
theorem C110_accepted (qsort : List Work → List Work) (hq : Sorts qsort) (output : List Nat)
    (hdr ehFrame : Nat) (entries : List (Nat × Nat)) (hh : hdr + 4 < 2 ^ 64) (he : ehFrame < 2 ^ 64)
    (hb : ∀ e ∈ entries, e.1 < 2 ^ 64 ∧ e.2 < 2 ^ 64) (hc : entries.length < 2 ^ 32)
    (ho : 12 + 8 * entries.length ≤ output.length) (hp : Near ehFrame (hdr + 4))
    (hn : ∀ e ∈ entries, Near e.1 hdr ∧ Near e.2 hdr) :
    ∃ bytes, encode qsort output hdr ehFrame entries = .ok bytes := by
  have h := C110_header qsort hq output hdr ehFrame entries (by omega) he hb
  rcases hr : encode qsort output hdr ehFrame entries with err | bytes
  · exfalso
    rw [hr] at h
    cases err with
    | firstPcRange i => obtain ⟨e, h1, h2⟩ := h; exact h2 (hn e (List.mem_of_getElem? h1)).1
    | fdeRange i => obtain ⟨e, h1, h2⟩ := h; exact h2 (hn e (List.mem_of_getElem? h1)).2
    | pointerRange =>
      rcases h with h | h
      · exact h hp
      · omega
    | countOverflow => simp only at h; omega
    | outputTooSmall => simp only at h; omega
    | sizeOverflow => exact h
    | workOverflow => exact h
    | outside => exact h
  · exact ⟨bytes, rfl⟩

theorem compare_iff (a b : Work) : compare a b ≤ 0 ↔ a.firstPc < b.firstPc ∨ (a.firstPc = b.firstPc ∧
    (a.fdeAddress < b.fdeAddress ∨
      (a.fdeAddress = b.fdeAddress ∧ a.originalIndex ≤ b.originalIndex))) := by
  unfold compare
  repeat' split
  all_goals omega

/-- A `qsort` as the C standard has it exists: merge sort. -/
theorem sorts_mergeSort : Sorts fun l => l.mergeSort fun a b => decide (compare a b ≤ 0) := by
  refine ⟨fun l => List.mergeSort_perm l _, fun l => ?_⟩
  have := List.pairwise_mergeSort (le := fun a b => decide (compare a b ≤ 0)) (by
      intro a b c h1 h2
      have h1 := (compare_iff a b).mp (of_decide_eq_true h1)
      have h2 := (compare_iff b c).mp (of_decide_eq_true h2)
      exact decide_eq_true ((compare_iff a c).mpr (by omega))) (by
      intro a b
      rw [Bool.or_eq_true, decide_eq_true_eq, decide_eq_true_eq, compare_iff, compare_iff]
      omega) l
  exact this.imp (by intro a b h; exact of_decide_eq_true h)

/-- Two rows given in the wrong order, which turning round sorts. -/
example : encode List.reverse (List.replicate 30 7) 0x400100
    0x400200 [(0x401000, 0x400218), (0x400800, 0x400230)] =
    .ok [1, 0x1b, 3, 0x3b, 0xfc, 0, 0, 0, 2, 0, 0, 0, 0, 7, 0, 0, 0x30, 1, 0, 0, 0, 15, 0, 0, 0x18, 1, 0, 0,
      7, 7] := by rfl

example : search [(0x400800, 0x400230), (0x401000, 0x400218)] 0x400fff = .row (0x400800, 0x400230) := by
  decide +kernel

end Nature.EhHdr
