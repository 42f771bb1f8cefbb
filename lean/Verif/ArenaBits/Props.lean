import Verif.ArenaBits.Lemmas
/-!
C09: the heap's pointer bitmap maps every word to its own bit.

`readKind h w` is the kind recorded for the word at address `w`; `Recorded h h' lo hi f` says that `h'` records
`f w` for every word of `[lo, hi)` and exactly what `h` recorded for every other word of the heap.
-/
namespace Nature.ArenaBits
open Nature.Bitmap (Bytes)

/-- C09: two words of the heap that share their recorded bit are the same word: their arenas and their bit
positions cannot both coincide. -/
theorem C09_distinct_words (h : Heap) (v w : Nat) (hv : h.off ≤ v) (hw : h.off ≤ w) (h8 : h.off % 8 = 0)
    (hv8 : v % 8 = 0) (hw8 : w % 8 = 0) (ha : arenaIndex h v = arenaIndex h w)
    (hb : bitsIndex (arenaBase h (arenaIndex h v)) v = bitsIndex (arenaBase h (arenaIndex h w)) w) : v = w := by
  have h1 := arenaBase_le hv
  have h2 := arenaBase_le hw
  rw [← ha] at h2 hb
  have hb8 : arenaBase h (arenaIndex h v) % 8 = 0 := by simp only [arenaBase, arenaSize]; omega
  rw [bitsIndex_eq (by simp only [arenaSize] at h1; omega), bitsIndex_eq (by simp only [arenaSize] at h2; omega)] at hb
  have := (pos_inj (a := (v - arenaBase h (arenaIndex h v)) / 8) (b := (w - arenaBase h (arenaIndex h v)) / 8)).mp hb
  omega

/-- C09: every word of an arena has its bit inside the arena's bit array. -/
theorem C09_in_range (h : Heap) (w : Nat) (hw : h.off ≤ w) :
    bitsIndex (arenaBase h (arenaIndex h w)) w < 8 * arenaBitsCount := by
  have h1 := arenaBase_le hw
  rw [bitsIndex_eq (by simp only [arenaSize] at h1; omega)]
  simp only [arenaSize, arenaBitsCount] at *; omega

/-- C09: a range update never fails on mapped memory, records the requested kind for every word of the range
and changes the recorded kind of no other word, in whatever number of arenas the range lies. -/
theorem C09_batch (h : Heap) (lo hi : Nat) (isClear : Bool) (hm : Mapped h lo hi) (hlo : lo % 8 = 0)
    (hhi : hi % 8 = 0) :
    ∃ h', batchHandle h lo hi isClear = some h' ∧ Recorded h h' lo hi (fun _ => !isClear) := by
  obtain ⟨h', e, _, _, hr⟩ := batchHandle_spec isClear _ h lo hi (Nat.le_refl _) hm hlo hhi
  exact ⟨h', e, hr⟩

/-- C09: recording a new object of an ordinary type.  Word `i` of the object is recorded as the type's bitmap
says for the words that begin below `last_ptr` (which need not be a multiple of the word size: an array of bytes counts its
last byte), as a scalar for the rest of the slot, and no word outside the object changes. -/
theorem C09_object (h : Heap) (addr objSize : Nat) (t : RType) (hm : Mapped h addr (addr + objSize))
    (ha : addr % 8 = 0) (ho : objSize % 8 = 0) (hp : t.arrPtr = false) (h0 : 0 < t.lastPtr)
    (hle : t.lastPtr ≤ objSize) (hg : t.lastPtr ≤ 64 * t.gcBits.length) :
    ∃ h', heapArenaBitsSet h addr objSize t = some h' ∧
      (∀ i, 8 * i < t.lastPtr → readKind h' (addr + 8 * i) = typeWord t i) ∧
      (∀ i, t.lastPtr ≤ 8 * i → i < objSize / 8 → readKind h' (addr + 8 * i) = some false) ∧
      (∀ w, h.off ≤ w → w % 8 = 0 → ¬ (addr ≤ w ∧ w < addr + objSize) → readKind h' w = readKind h w) := by
  have hoff := hm.1
  have key : ∃ h1, batchHandle h (addr + t.lastPtr) (addr + objSize) true = some h1 ∧ h1.off = h.off ∧
      (∀ l u, Mapped h l u → Mapped h1 l u) ∧
      Recorded h h1 ((addr + t.lastPtr) / 8 * 8) (addr + objSize) (fun _ => !true) := by
    by_cases hlt : addr + t.lastPtr < addr + objSize
    · rw [batchHandle_floor true hlt (by omega) hm.2.1]
      exact batchHandle_spec true _ h ((addr + t.lastPtr) / 8 * 8) (addr + objSize) (Nat.le_refl _)
        (mapped_mono hm (by omega) (Nat.le_refl _)) (by omega) (by omega)
    · have : (addr + t.lastPtr) / 8 * 8 = addr + t.lastPtr := by omega
      rw [this]
      exact batchHandle_spec true _ h (addr + t.lastPtr) (addr + objSize) (Nat.le_refl _)
        (mapped_mono hm (by omega) (Nat.le_refl _)) (by omega) (by omega)
  obtain ⟨h1, e1, o1, m1, r1⟩ := key
  obtain ⟨h2, e2, o2, m2, r2⟩ := setWords_spec t.gcBits _ h1 addr ((addr + t.lastPtr + 7) / 8 * 8) 0 (Nat.le_refl _)
    (mapped_mono (m1 _ _ hm) (Nat.le_refl _) (by omega)) ha (by omega) (by omega)
  rw [← setWords_ceil t.gcBits _ h1 addr (addr + t.lastPtr) 0 (Nat.le_refl _) ha] at e2
  rw [o1] at r2
  refine ⟨h2, ?_, fun i hi => ?_, fun i hi1 hi2 => ?_, fun w hw hw8 hout => ?_⟩
  · rw [heapArenaBitsSet, if_neg (by omega), hp]
    simp [e1, e2]
  · rw [r2 _ (by omega) (by omega), if_pos (by omega), typeWord]
    congr 1; omega
  · rw [r2 _ (by omega) (by omega), if_neg (by omega), r1 _ (by omega) (by omega), if_pos (by omega)]
    rfl
  · rw [r2 w hw hw8, if_neg (by omega), r1 w hw hw8, if_neg (by omega)]

/-- C09: recording an array made at run time whose elements contain pointers: every word of the slot is
recorded as a pointer and no word outside the slot changes. -/
theorem C09_array (h : Heap) (addr objSize : Nat) (t : RType) (hm : Mapped h addr (addr + objSize))
    (ha : addr % 8 = 0) (ho : objSize % 8 = 0) (hp : t.arrPtr = true) (h0 : 0 < t.lastPtr) :
    ∃ h', heapArenaBitsSet h addr objSize t = some h' ∧
      Recorded h h' addr (addr + objSize) (fun _ => true) := by
  obtain ⟨h1, e1, hr⟩ := C09_batch h addr (addr + objSize) false hm ha (by omega)
  refine ⟨h1, ?_, hr⟩
  rw [heapArenaBitsSet, if_neg (by omega), hp]
  simpa using e1

/-- C09 / C12: while scanning an object that lies inside one arena, the mark phase reads for every word the
kind recorded for it. -/
theorem C09_scan_partial (h : Heap) (obj w : Nat) (ho : h.off ≤ obj) (h1 : obj ≤ w)
    (h2 : w < arenaBase h (arenaIndex h obj) + arenaSize) : scanKind h obj w = readKind h w := by
  have hb := arenaBase_le ho
  have : arenaIndex h w = arenaIndex h obj := arenaIndex_eq (by omega) h2
  rw [scanKind, readKind, this]

/-- C12 fails for an object that crosses an arena boundary: the mark phase looks the kind of every word up in
the bit array of the arena in which the *object* starts, so for a word in the next arena it reads outside that
array, whatever was recorded for the word. -/
theorem C09_scan_crossing_counterexample (h : Heap) (obj w : Nat) (b : Bytes)
    (hw : arenaBase h (arenaIndex h obj) + arenaSize ≤ w) (hfar : w - arenaBase h (arenaIndex h obj) < 2 ^ 60)
    (hb : h.arenas (arenaIndex h obj) = some b) (hl : b.length = arenaBitsCount) :
    scanKind h obj w = none := by
  rw [scanKind, hb]
  simp only [Bitmap.test_spec]
  rw [bitsIndex_eq hfar]
  cases hbit : Bitmap.bit b _ with
  | none => rfl
  | some v =>
    have := (Bitmap.bit_isSome b ((w - arenaBase h (arenaIndex h obj)) / 8 / 4 * 8 +
      (w - arenaBase h (arenaIndex h obj)) / 8 % 4)).mp (by rw [hbit]; rfl)
    rw [hl] at this
    simp only [arenaBitsCount, arenaSize] at *
    omega

/-! ### Concrete cases -/

/-- The zeroed bit array of a fresh arena (allocator.c:679). -/
def freshBits : Bytes := List.replicate arenaBitsCount 0#8

theorem freshBits_length : freshBits.length = arenaBitsCount := List.length_replicate

attribute [irreducible] freshBits

/-- Two fresh arenas at the Linux heap base. -/
def twoArenas : Heap := ⟨0xc000000000, fun i => if i < 2 then some freshBits else none⟩

theorem twoArenas_mapped (lo hi : Nat) (h1 : 0xc000000000 ≤ lo) (h2 : hi ≤ 0xc000000000 + 2 * arenaSize) :
    Mapped twoArenas lo hi := by
  refine ⟨h1, by decide, fun a ha1 ha2 => ⟨freshBits, ?_, freshBits_length⟩⟩
  have : arenaIndex twoArenas a < 2 := by
    simp only [arenaIndex, twoArenas, arenaSize] at *; omega
  simp only [twoArenas] at this ⊢
  rw [if_pos this]

/-- The hypotheses of `C09_batch` are met by a range that crosses from the first arena into the second, and the
range is non-empty on both sides. -/
example : ∃ h', batchHandle twoArenas (0xc000000000 + arenaSize - 16) (0xc000000000 + arenaSize + 24) false = some h' ∧
    readKind h' (0xc000000000 + arenaSize - 8) = some true ∧
    readKind h' (0xc000000000 + arenaSize + 16) = some true ∧
    readKind h' (0xc000000000 + arenaSize + 24) = readKind twoArenas (0xc000000000 + arenaSize + 24) := by
  obtain ⟨h', e, hr⟩ := C09_batch twoArenas (0xc000000000 + arenaSize - 16) (0xc000000000 + arenaSize + 24) false
    (twoArenas_mapped _ _ (by decide) (by decide)) (by decide) (by decide)
  refine ⟨h', e, ?_, ?_, ?_⟩
  · rw [hr _ (by decide) (by decide), if_pos (by decide)]; rfl
  · rw [hr _ (by decide) (by decide), if_pos (by decide)]; rfl
  · rw [hr _ (by decide) (by decide), if_neg (by decide)]

/-- The hypotheses of `C09_object` are met by a three word object {pointer, scalar, pointer} in a 32 byte slot
of which the last word is padding. -/
example : ∃ h', heapArenaBitsSet twoArenas 0xc000000040 32 ⟨false, 24, [0b101#8]⟩ = some h' ∧
    readKind h' 0xc000000040 = some true ∧ readKind h' 0xc000000048 = some false ∧
    readKind h' 0xc000000050 = some true ∧ readKind h' 0xc000000058 = some false := by
  obtain ⟨h', e, h1, h2, _⟩ := C09_object twoArenas 0xc000000040 32 ⟨false, 24, [0b101#8]⟩
    (twoArenas_mapped _ _ (by decide) (by decide)) (by decide) (by decide) rfl (by decide) (by decide) (by decide)
  exact ⟨h', e, h1 0 (by decide), h1 1 (by decide), h1 2 (by decide), h2 3 (by decide) (by decide)⟩

/-- … and by an array of 13 bytes, whose last pointer is not a multiple of the word size. -/
example : ∃ h', heapArenaBitsSet twoArenas 0xc000000040 16 ⟨false, 13, [0#8]⟩ = some h' ∧
    readKind h' 0xc000000040 = some false ∧ readKind h' 0xc000000048 = some false := by
  obtain ⟨h', e, h1, h2, _⟩ := C09_object twoArenas 0xc000000040 16 ⟨false, 13, [0#8]⟩
    (twoArenas_mapped _ _ (by decide) (by decide)) (by decide) (by decide) rfl (by decide) (by decide) (by decide)
  exact ⟨h', e, h1 0 (by decide), h1 1 (by decide)⟩

/-- The hypotheses of the crossing counterexample are met by a recorded object: the last word of an array that
starts 16 bytes before the end of the first arena is recorded as a pointer, but the mark phase cannot see it. -/
theorem C12_crossing_counterexample : ∃ h',
    heapArenaBitsSet twoArenas (0xc000000000 + arenaSize - 16) 40 ⟨true, 1, []⟩ = some h' ∧
    readKind h' (0xc000000000 + arenaSize + 16) = some true ∧
    (∃ b, h'.arenas (arenaIndex h' (0xc000000000 + arenaSize - 16)) = some b ∧ b.length = arenaBitsCount) ∧
    scanKind h' (0xc000000000 + arenaSize - 16) (0xc000000000 + arenaSize + 16) = none := by
  obtain ⟨h', e, ho, hm, hr⟩ := batchHandle_spec false _ twoArenas (0xc000000000 + arenaSize - 16)
    (0xc000000000 + arenaSize - 16 + 40) (Nat.le_refl _) (twoArenas_mapped _ _ (by decide) (by decide))
    (by decide) (by decide)
  have hm' := hm _ _ (twoArenas_mapped (0xc000000000 + arenaSize - 16) (0xc000000000 + arenaSize) (by decide) (by decide))
  obtain ⟨b, hb, hl⟩ := hm'.2.2 (0xc000000000 + arenaSize - 16) (Nat.le_refl _) (by decide)
  have hoff : h'.off = 0xc000000000 := ho
  refine ⟨h', ?_, ?_, ⟨b, hb, hl⟩, ?_⟩
  · rw [heapArenaBitsSet, if_neg (by decide), if_pos rfl, e]
  · rw [hr _ (by decide) (by decide), if_pos (by decide)]; rfl
  · apply C09_scan_crossing_counterexample h' _ _ b _ _ hb hl
    · rw [arenaBase, arenaIndex, hoff]; decide
    · rw [arenaBase, arenaIndex, hoff]; decide

end Nature.ArenaBits
