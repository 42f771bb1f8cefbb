import Verif.Dynamic.Spec
import Verif.Dynamic.Model

/-!
# C114: the start-up code finds in the dynamic section what the linker meant
-/

namespace Nature.Dynamic

open Spec (tags relas Rela signed u64)

theorem writeU64_eq (v : Nat) : ∃ b0 b1 b2 b3 b4 b5 b6 b7,
    writeU64 v = [b0, b1, b2, b3, b4, b5, b6, b7] ∧ (v < 2 ^ 64 → u64 b0 b1 b2 b3 b4 b5 b6 b7 = v) := by
  refine ⟨_, _, _, _, _, _, _, _, rfl, ?_⟩
  intro h
  unfold u64
  omega

theorem writeU64_length (v : Nat) : (writeU64 v).length = 8 := rfl

theorem tags_entry (tag value : Nat) (rest : List Nat) (h1 : tag < 2 ^ 64) (h2 : value < 2 ^ 64)
    (h0 : tag ≠ 0) : tags (writeEntry tag value ++ rest) = (tags rest).map ((tag, value) :: ·) := by
  obtain ⟨a0, a1, a2, a3, a4, a5, a6, a7, ea, ha⟩ := writeU64_eq tag
  obtain ⟨b0, b1, b2, b3, b4, b5, b6, b7, eb, hb⟩ := writeU64_eq value
  unfold writeEntry
  rw [ea, eb]
  simp only [List.cons_append, List.nil_append, tags]
  rw [ha h1, hb h2, if_neg h0]

theorem tags_end (value : Nat) (rest : List Nat) : tags (writeEntry 0 value ++ rest) = some [] := by
  obtain ⟨a0, a1, a2, a3, a4, a5, a6, a7, ea, ha⟩ := writeU64_eq 0
  obtain ⟨b0, b1, b2, b3, b4, b5, b6, b7, eb, hb⟩ := writeU64_eq value
  unfold writeEntry
  rw [ea, eb]
  simp only [List.cons_append, List.nil_append, tags]
  rw [ha (by decide), if_pos rfl]

/-- All addresses and sizes are of 64 bits. -/
def Wide (m : Meta) : Prop :=
  m.init < 2 ^ 64 ∧ m.fini < 2 ^ 64 ∧ m.initArray < 2 ^ 64 ∧ m.initArraySize < 2 ^ 64 ∧
  m.finiArray < 2 ^ 64 ∧ m.finiArraySize < 2 ^ 64 ∧ m.rela < 2 ^ 64 ∧ m.relaSize < 2 ^ 64 ∧
  m.hash < 2 ^ 64 ∧ m.gnuHash < 2 ^ 64 ∧ m.dynsym < 2 ^ 64 ∧ m.dynstr < 2 ^ 64 ∧ m.dynstrSize < 2 ^ 64

/-- The entries, as pairs. -/
def pairs (m : Meta) : List (Nat × Nat) :=
  (if m.hasInit then [(12, m.init)] else []) ++
  (if m.hasFini then [(13, m.fini)] else []) ++
  (if m.hasInitArray then [(25, m.initArray), (27, m.initArraySize)] else []) ++
  (if m.hasFiniArray then [(26, m.finiArray), (28, m.finiArraySize)] else []) ++
  (if m.hasRela then [(7, m.rela), (8, m.relaSize), (9, 24)] else []) ++
  [(4, m.hash), (0x6ffffef5, m.gnuHash), (6, m.dynsym), (11, 24), (5, m.dynstr), (10, m.dynstrSize)] ++
  (if m.hasStaticTls then [(30, 0x10)] else []) ++
  [(0x6ffffffb, 0x08000000), (21, 0)]

def writeAll (ps : List (Nat × Nat)) : List Nat := (ps.map fun p => writeEntry p.1 p.2).flatten

theorem tags_all (ps : List (Nat × Nat)) (h : ∀ p ∈ ps, p.1 ≠ 0 ∧ p.1 < 2 ^ 64 ∧ p.2 < 2 ^ 64) :
    tags (writeAll ps ++ writeEntry 0 0) = some ps := by
  induction ps with
  | nil => exact tags_end 0 []
  | cons p ps ih =>
    obtain ⟨h1, h2, h3⟩ := h p (by simp)
    have e : writeAll (p :: ps) ++ writeEntry 0 0 = writeEntry p.1 p.2 ++ (writeAll ps ++ writeEntry 0 0) := by
      simp [writeAll]
    rw [e, tags_entry _ _ _ h2 h3 h1, ih (fun q hq => h q (by simp [hq]))]
    rfl

theorem encode_eq (m : Meta) : encode m = writeAll (pairs m) ++ writeEntry 0 0 := by
  unfold encode pairs writeAll
  simp only [List.map_append, List.flatten_append]
  cases m.hasInit <;> cases m.hasFini <;> cases m.hasInitArray <;> cases m.hasFiniArray <;>
    cases m.hasRela <;> cases m.hasStaticTls <;> simp [List.append_assoc]

theorem pairs_wide (m : Meta) (h : Wide m) : ∀ p ∈ pairs m, p.1 ≠ 0 ∧ p.1 < 2 ^ 64 ∧ p.2 < 2 ^ 64 := by
  obtain ⟨h1, h2, h3, h4, h5, h6, h7, h8, h9, h10, h11, h12, h13⟩ := h
  unfold pairs
  simp only [List.forall_mem_append]
  refine ⟨⟨⟨⟨⟨⟨⟨?_, ?_⟩, ?_⟩, ?_⟩, ?_⟩, ?_⟩, ?_⟩, ?_⟩
  · split <;> simp <;> omega
  · split <;> simp <;> omega
  · split <;> simp <;> omega
  · split <;> simp <;> omega
  · split <;> simp <;> omega
  · simp; omega
  · split <;> simp
  · simp

/-- The pairs of an optional part, one flag at a time: what precedes has other tags. -/
theorem lookup_ite (b : Bool) (l r : List (Nat × Nat)) (t : Nat) :
    ((if b then l else []) ++ r).lookup t = if b then (l ++ r).lookup t else r.lookup t := by
  cases b <;> rfl

theorem ite_length (b : Bool) (l : List Nat) (n : Nat) (h : l.length = n) :
    (if b then l else []).length = if b then n else 0 := by
  cases b
  · rfl
  · simpa using h

set_option maxHeartbeats 4000000 in
/-- The start-up code finds, under the tag of each datum, the datum if the program has it and nothing
otherwise; the section has the size announced, and is marked as a position-independent program. -/
theorem C114_tags (m : Meta) (h : Wide m) :
    (encode m).length = size m ∧
    ∃ ts, tags (encode m) = some ts ∧
      ts.lookup 12 = (if m.hasInit then some m.init else none) ∧
      ts.lookup 13 = (if m.hasFini then some m.fini else none) ∧
      ts.lookup 25 = (if m.hasInitArray then some m.initArray else none) ∧
      ts.lookup 27 = (if m.hasInitArray then some m.initArraySize else none) ∧
      ts.lookup 26 = (if m.hasFiniArray then some m.finiArray else none) ∧
      ts.lookup 28 = (if m.hasFiniArray then some m.finiArraySize else none) ∧
      ts.lookup 7 = (if m.hasRela then some m.rela else none) ∧
      ts.lookup 8 = (if m.hasRela then some m.relaSize else none) ∧
      ts.lookup 9 = (if m.hasRela then some 24 else none) ∧
      ts.lookup 4 = some m.hash ∧ ts.lookup 0x6ffffef5 = some m.gnuHash ∧
      ts.lookup 6 = some m.dynsym ∧ ts.lookup 11 = some 24 ∧
      ts.lookup 5 = some m.dynstr ∧ ts.lookup 10 = some m.dynstrSize ∧
      ts.lookup 30 = (if m.hasStaticTls then some 0x10 else none) ∧
      ts.lookup 0x6ffffffb = some 0x08000000 ∧ ts.lookup 21 = some 0 := by
  refine ⟨?_, pairs m, ?_, ?_⟩
  · have e : ∀ t v, (writeEntry t v).length = 16 := fun t v => rfl
    unfold encode size
    have e2 : ∀ t v t' v', (writeEntry t v ++ writeEntry t' v').length = 32 := fun t v t' v' => rfl
    have e3 : ∀ t v t' v' t'' v'',
      (writeEntry t v ++ writeEntry t' v' ++ writeEntry t'' v'').length = 48 := fun t v t' v' t'' v'' => rfl
    rw [List.length_append, List.length_append, List.length_append, List.length_append, List.length_append,
      List.length_append, List.length_append, List.length_append, List.length_append, List.length_append,
      List.length_append, List.length_append, List.length_append, List.length_append,
      ite_length _ _ 16 (e _ _), ite_length _ _ 16 (e _ _), ite_length _ _ 32 (e2 _ _ _ _),
      ite_length _ _ 32 (e2 _ _ _ _), ite_length _ _ 48 (e3 _ _ _ _ _ _), ite_length _ _ 16 (e _ _)]
    simp only [e]
    generalize m.hasInit = b1, m.hasFini = b2, m.hasInitArray = b3, m.hasFiniArray = b4, m.hasRela = b5,
      m.hasStaticTls = b6
    revert b1 b2 b3 b4 b5 b6
    decide
  · rw [encode_eq]
    exact tags_all _ (pairs_wide m h)
  · unfold pairs
    cases m.hasInit <;> cases m.hasFini <;> cases m.hasInitArray <;> cases m.hasFiniArray <;>
      cases m.hasRela <;> cases m.hasStaticTls <;>
      exact ⟨rfl, rfl, rfl, rfl, rfl, rfl, rfl, rfl, rfl, rfl, rfl, rfl, rfl, rfl, rfl, rfl, rfl, rfl⟩

/-- What the start-up code is to see of a relocation. -/
def view (r : Reloc) : Rela := ⟨r.offset, r.symbol, r.type, r.addend⟩

theorem signed_mod (a : Int) (h1 : -2 ^ 63 ≤ a) (h2 : a < 2 ^ 63) : signed (a % 2 ^ 64).toNat = a := by
  unfold signed
  split <;> omega

theorem relas_encode (rs : List Reloc)
    (h : ∀ r ∈ rs, r.offset < 2 ^ 64 ∧ r.symbol < 2 ^ 32 ∧ r.type < 2 ^ 32 ∧ -2 ^ 63 ≤ r.addend ∧
      r.addend < 2 ^ 63) : relas (encodeRelocs rs) = some (rs.map view) := by
  induction rs with
  | nil => rfl
  | cons r rs ih =>
    obtain ⟨h1, h2, h3, h4, h5⟩ := h r (by simp)
    obtain ⟨a0, a1, a2, a3, a4, a5, a6, a7, ea, ha⟩ := writeU64_eq r.offset
    obtain ⟨b0, b1, b2, b3, b4, b5, b6, b7, eb, hb⟩ := writeU64_eq (r.symbol * 2 ^ 32 + r.type % 2 ^ 32)
    obtain ⟨c0, c1, c2, c3, c4, c5, c6, c7, ec, hc⟩ := writeU64_eq (r.addend % 2 ^ 64).toNat
    rw [encodeRelocs, ea, eb, ec]
    simp only [List.cons_append, List.nil_append, relas]
    rw [ih (fun x hx => h x (by simp [hx])), ha h1, hb (by omega), hc (by omega), signed_mod _ h4 h5]
    have e1 : (r.symbol * 2 ^ 32 + r.type % 2 ^ 32) / 2 ^ 32 = r.symbol := by omega
    have e2 : (r.symbol * 2 ^ 32 + r.type % 2 ^ 32) % 2 ^ 32 = r.type := by omega
    rw [e1, e2]
    rfl

theorem compare_kind (a b : Reloc) (h : compare a b ≤ 0) : a.kind ≤ b.kind := by
  unfold compare at h
  split at h
  · split at h <;> omega
  · omega

/-- The start-up code reads exactly the relocations given, each as often as given, and those whose value is
computed by a function of the program (kind 2) after all others, so that the function finds them done. -/
theorem C114_relocations (rs sorted : List Reloc) (hs : Sorted rs sorted)
    (h : ∀ r ∈ rs, r.offset < 2 ^ 64 ∧ r.symbol < 2 ^ 32 ∧ r.type < 2 ^ 32 ∧ -2 ^ 63 ≤ r.addend ∧
      r.addend < 2 ^ 63) :
    (encodeRelocs sorted).length = 24 * rs.length ∧
    ∃ read, relas (encodeRelocs sorted) = some read ∧
      read.Perm (rs.map fun r => ⟨r.offset, r.symbol, r.type, r.addend⟩) ∧
      ∃ early late, read = early ++ late ∧
        early.Perm ((rs.filter fun r => r.kind < 2).map fun r => ⟨r.offset, r.symbol, r.type, r.addend⟩) ∧
        late.Perm ((rs.filter fun r => ¬ r.kind < 2).map fun r =>
          ⟨r.offset, r.symbol, r.type, r.addend⟩) := by
  have hlen : ∀ l : List Reloc, (encodeRelocs l).length = 24 * l.length := by
    intro l
    induction l with
    | nil => rfl
    | cons r rs ih =>
      simp only [encodeRelocs, List.length_append, writeU64_length, ih, List.length_cons]
      omega
  have hsplit : ∀ l : List Reloc, l.Pairwise (fun a b => compare a b ≤ 0) →
      l = (l.filter fun r => r.kind < 2) ++ l.filter fun r => ¬ r.kind < 2 := by
    intro l hl
    induction l with
    | nil => rfl
    | cons r rs ih =>
      rw [List.pairwise_cons] at hl
      by_cases hk : r.kind < 2
      · rw [List.filter_cons_of_pos (by simpa using hk), List.filter_cons_of_neg (by simpa using hk),
          List.cons_append, ← ih hl.2]
      · have hnone : (rs.filter fun r => r.kind < 2) = [] := by
          rw [List.filter_eq_nil_iff]
          intro x hx
          have := compare_kind _ _ (hl.1 x hx)
          simp only [decide_eq_true_eq]
          omega
        rw [List.filter_cons_of_neg (by simpa using hk), List.filter_cons_of_pos (by simpa using hk), hnone,
          List.nil_append]
        have := ih hl.2
        rw [hnone, List.nil_append] at this
        rw [← this]
  refine ⟨by rw [hlen, hs.perm.length_eq], sorted.map view,
    relas_encode _ (fun r hr => h r (hs.perm.mem_iff.mp hr)), hs.perm.map _,
    (sorted.filter fun r => r.kind < 2).map view, (sorted.filter fun r => ¬ r.kind < 2).map view, ?_,
    (hs.perm.filter _).map _, (hs.perm.filter _).map _⟩
  rw [← List.map_append, ← hsplit sorted hs.ordered]

/-- Three relocations, one of which has a negative addend. -/
example : Sorted [⟨0x5000, 0, 37, 0x1234, 2⟩, ⟨0x4010, 0, 8, 0x1000, 0⟩, ⟨0x4000, 3, 1, -8, 1⟩]
    [⟨0x4010, 0, 8, 0x1000, 0⟩, ⟨0x4000, 3, 1, -8, 1⟩, ⟨0x5000, 0, 37, 0x1234, 2⟩] :=
  ⟨by decide, by decide⟩

example : Wide ⟨true, false, true, false, true, true, 0x1000, 0, 0x4000, 8, 0, 0, 0x300, 48, 0x200, 0x210,
    0x220, 0x240, 1⟩ := by unfold Wide; decide

end Nature.Dynamic
