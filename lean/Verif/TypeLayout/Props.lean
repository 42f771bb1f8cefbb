import Verif.TypeLayout.Lemmas
import Verif.ArenaBits.Props
/-!
C59: the description of a type that the compiler gives the collector names the place of every pointer.
C60: fields are laid out as a C compiler does.
-/
namespace Nature.TypeLayout
open Nature.Bitmap (Bytes)

/-- The types for which C59 is proved: not an `any` on its own, no struct of 64 KiB or more on its own.  (Inside other
types both are covered.) -/
def Supported : Ty → Prop
  | .any => False
  | .struct fs => sizeOf (.struct fs) < 65536
  | _ => True

theorem describes_of_good {t : Ty} {b : Bits} {bytes : Bytes} {hs l : Nat} (g : Good b t 0)
    (hb : ∀ j, Bitmap.bit bytes j = some true ↔ j ∈ b.idx) (hl : l = b.last) (hh : hs = sizeOf t)
    (hlen : sizeOf t ≤ 64 * bytes.length) : Describes ⟨hs, l, bytes⟩ t := by
  have hlast := g.last
  subst hl; subst hh
  refine ⟨fun o ho => ?_, fun i hi => ?_, by dsimp only; omega, by dsimp only; omega⟩
  · have hw := ptrAt_word ho
    have hc := g.covers o ho
    rw [Nat.zero_add] at hc
    exact ⟨hw.2.1, hc.2, (hb _).mpr hc.1⟩
  · obtain ⟨o, e, hp⟩ := g.exact i ((hb i).mp hi)
    rw [Nat.zero_add] at e
    subst e
    exact hp

/-- C59, for every type other than `any` and structs of 64 KiB or more: the description exists (no bit is set outside the
bitmap), names every place where a value of the type may hold a pointer, and names no place that neither holds a pointer nor
lies in a union.  Missing: the two excluded cases, where the code is wrong (below). -/
theorem C59_describes_partial (t : Ty) (ht : Supported t) : ∃ r, rtypeOf t = some r ∧ Describes r t := by
  have al : Aligned 0 (alignOf t) := .inr (Nat.zero_mod _)
  have scalar : (∀ o, ¬ PtrAt t o) → ∃ b, bitmapOf (sizeOf t) [] = some b ∧ Describes ⟨sizeOf t, 0, b⟩ t := fun hn => by
    obtain ⟨b, e, _, hb⟩ := bitmapOf_spec (size := sizeOf t) (idx := []) (fun i hi => absurd hi (by simp))
    refine ⟨b, e, fun o ho => absurd ho (hn o), fun i hi => ?_, Nat.zero_le _, Nat.zero_le _⟩
    exact absurd ((hb i).mp hi) (by simp)
  cases t with
  | void => obtain ⟨b, e, d⟩ := scalar (fun o h => by cases h); exact ⟨_, by rw [rtypeOf, e] <;> simp, d⟩
  | int8 => obtain ⟨b, e, d⟩ := scalar (fun o h => by cases h); exact ⟨_, by rw [rtypeOf, e] <;> simp, d⟩
  | int16 => obtain ⟨b, e, d⟩ := scalar (fun o h => by cases h); exact ⟨_, by rw [rtypeOf, e] <;> simp, d⟩
  | int32 => obtain ⟨b, e, d⟩ := scalar (fun o h => by cases h); exact ⟨_, by rw [rtypeOf, e] <;> simp, d⟩
  | int64 => obtain ⟨b, e, d⟩ := scalar (fun o h => by cases h); exact ⟨_, by rw [rtypeOf, e] <;> simp, d⟩
  | ptr =>
    obtain ⟨b, e, hlen, hb⟩ := bitmapOf_spec (size := 8) (idx := [0]) (by simp)
    have g := bits_good false .ptr 0 al
    rw [bitsOf] at g
    exact ⟨⟨8, 8, b⟩, by simp [rtypeOf, e], describes_of_good g (by simpa using hb) rfl rfl (by simpa [sizeOf] using hlen)⟩
  | header h =>
    have g := bits_good false (.header h) 0 al
    rw [bitsOf, headerBits] at g
    obtain ⟨b, e, hlen, hb⟩ := bitmapOf_spec (size := if h = .interface then 16 else h.size) (idx := List.range h.slots)
      (fun i hi => by
        have := List.mem_range.mp hi
        have hf := header_fits h
        split
        · next hh => subst hh; simp only [Header.slots] at this; omega
        · omega)
    refine ⟨⟨h.size, h.slots * 8, b⟩, by simp [rtypeOf, e], ?_⟩
    refine ⟨fun o ho => ?_, fun i hi => ?_, header_fits h, ?_⟩
    · have hw := ptrAt_word ho
      have hc := g.covers o ho
      simp only [Nat.zero_add, Nat.zero_div, List.map_id'] at hc
      exact ⟨hw.2.1, hc.2, (hb _).mpr hc.1⟩
    · obtain ⟨o, e', hp⟩ := g.exact i (by simpa using (hb i).mp hi)
      rw [Nat.zero_add] at e'
      subst e'
      exact hp
    · have hf := header_fits h
      dsimp only
      split at hlen
      · next hh => subst hh; simp only [Header.slots]; omega
      · omega
  | any => exact absurd ht id
  | union es =>
    have g := bits_good false (.union es) 0 al
    rw [bitsOf, unionBits] at g
    simp only [Nat.zero_add, Nat.zero_div, List.map_id'] at g
    obtain ⟨b, e, hlen, hb⟩ := bitmapOf_spec (size := sizeOf (.union es))
      (idx := List.range (alignUp (sizeOf (.union es)) 8 / 8)) (fun i hi => by simpa using g.fits i hi)
    exact ⟨⟨sizeOf (.union es), alignUp (sizeOf (.union es)) 8 / 8 * 8, b⟩, by simp [rtypeOf, e],
      describes_of_good g hb rfl rfl hlen⟩
  | tagged es =>
    have g := bits_good false (.tagged es) 0 al
    rw [bitsOf, taggedBits] at g
    simp only [Nat.zero_add, Nat.zero_div] at g
    obtain ⟨b, e, hlen, hb⟩ := bitmapOf_spec (size := sizeOf (.tagged es))
      (idx := (List.range (alignUp (sizeOf (.tagged es)) 8 / 8 - 1)).map (· + 1)) (fun i hi => by simpa using g.fits i hi)
    refine ⟨⟨sizeOf (.tagged es), alignUp (sizeOf (.tagged es)) 8 / 8 * 8, b⟩, by simp [rtypeOf, e],
      describes_of_good g hb ?_ rfl hlen⟩
    have hm := tagged_mod es
    have hs : 16 ≤ sizeOf (.tagged es) := by
      rw [sizeOf]
      have := le_alignUp (n := if maxSize es = 0 then 8 else maxSize es) pow8
      have ha := mod8_of (alignUp_aligned (n := if maxSize es = 0 then 8 else maxSize es) pow8)
      split at this <;> simp_all <;> omega
    rw [alignUp_self pow8 (.inr hm)]
    rw [if_pos (by omega)]
  | arr u n =>
    have g := bits_good false (.arr u n) 0 al
    rw [bitsOf] at g
    obtain ⟨b, e, hlen, hb⟩ := bitmapOf_spec (size := sizeOf (.arr u n)) (fun i hi => by simpa using g.fits i hi)
    exact ⟨⟨sizeOf u * n, _, b⟩, by simp [rtypeOf, e], describes_of_good g hb rfl (by rw [sizeOf, Nat.mul_comm]) hlen⟩
  | struct fs =>
    have g := bits_good false (.struct fs) 0 al
    by_cases h0 : sizeOf (.struct fs) = 0
    · obtain ⟨b, e, _, hb⟩ := bitmapOf_spec (size := 1) (idx := []) (fun i hi => absurd hi (by simp))
      refine ⟨⟨1, 0, b⟩, by simp [rtypeOf, e, h0], fun o ho => ?_, fun i hi => ?_, Nat.zero_le _, Nat.zero_le _⟩
      · have := ptrAt_word ho
        omega
      · exact absurd ((hb i).mp hi) (by simp)
    · obtain ⟨b, e, hlen, hb⟩ := bitmapOf_spec (size := sizeOf (.struct fs)) (fun i hi => by simpa using g.fits i hi)
      refine ⟨⟨sizeOf (.struct fs), _ % 2 ^ 16, b⟩, by simp [rtypeOf, e, h0]; rfl, describes_of_good g hb ?_ rfl hlen⟩
      have h1 : sizeOf (.struct fs) < 65536 := ht
      have h2 := g.last
      exact Nat.mod_eq_of_lt (by omega)
  | tuple es =>
    have g := bits_good false (.tuple es) 0 al
    obtain ⟨b, e, hlen, hb⟩ := bitmapOf_spec (size := sizeOf (.tuple es)) (fun i hi => by simpa using g.fits i hi)
    exact ⟨⟨sizeOf (.tuple es), _, b⟩, by simp [rtypeOf, e], describes_of_good g hb rfl rfl hlen⟩

/-- C59 at work on the heap: after the allocator has recorded a new object of the type (in a slot at least as large as the
type), every word of the object that may hold a pointer is recorded as a pointer. -/
theorem C59_heap_partial (t : Ty) (ht : Supported t) (h : ArenaBits.Heap) (addr slot : Nat)
    (hm : ArenaBits.Mapped h addr (addr + slot)) (ha : addr % 8 = 0) (hs : slot % 8 = 0) :
    ∃ r, rtypeOf t = some r ∧ (r.heapSize ≤ slot → 0 < r.lastPtr →
      ∃ h', ArenaBits.heapArenaBitsSet h addr slot ⟨false, r.lastPtr, r.bits⟩ = some h' ∧
        ∀ o, PtrAt t o → ArenaBits.readKind h' (addr + o) = some true) := by
  obtain ⟨r, e, d⟩ := C59_describes_partial t ht
  refine ⟨r, e, fun hsz h0 => ?_⟩
  have hf := d.fits
  have hbm := d.bitmap
  obtain ⟨h', e', hw, _⟩ := ArenaBits.C09_object h addr slot ⟨false, r.lastPtr, r.bits⟩ hm ha hs rfl h0
    (by dsimp only; omega) hbm
  refine ⟨h', e', fun o ho => ?_⟩
  obtain ⟨h8, hl, hb⟩ := d.covers o ho
  have := hw (o / 8) (by dsimp only; omega)
  rw [show 8 * (o / 8) = o by omega] at this
  rw [this, ArenaBits.typeWord]
  exact hb

/-- A type whose description claims no pointer has none: the allocator may put its objects where the collector does not
look. -/
theorem C59_noscan_partial (t : Ty) (ht : Supported t) (r : RType) (hr : rtypeOf t = some r) (h0 : r.lastPtr = 0) :
    ∀ o, ¬ PtrAt t o := by
  obtain ⟨r', e, d⟩ := C59_describes_partial t ht
  rw [hr, Option.some.injEq] at e
  subst e
  intro o ho
  have := (d.covers o ho).2.1
  omega

theorem scanWords_mem {r : RType} (hb : r.lastPtr ≤ 64 * r.bits.length) : ∀ n i, (r.lastPtr + 7) / 8 ≤ n + i →
    ∃ l, scanWords r n i = some l ∧ ∀ j, i ≤ j → 8 * j < r.lastPtr → Bitmap.bit r.bits j = some true → 8 * j ∈ l
  | 0, i, hn => ⟨[], rfl, fun j h1 h2 _ => by omega⟩
  | n + 1, i, hn => by
    obtain ⟨l, e, hl⟩ := scanWords_mem hb n (i + 1) (by omega)
    rw [scanWords]
    by_cases hlt : 8 * i < r.lastPtr
    · rw [if_pos hlt, e, Bitmap.test_spec]
      have hi := (Bitmap.bit_isSome r.bits i).mpr (by omega)
      cases hbit : Bitmap.bit r.bits i with
      | none => rw [hbit] at hi; simp at hi
      | some v =>
        cases v with
        | true =>
          refine ⟨8 * i :: l, rfl, fun j h1 h2 h3 => ?_⟩
          by_cases hji : j = i
          · subst hji; exact List.mem_cons_self
          · exact List.mem_cons_of_mem _ (hl j (by omega) h2 h3)
        | false =>
          refine ⟨l, rfl, fun j h1 h2 h3 => ?_⟩
          by_cases hji : j = i
          · subst hji; rw [hbit] at h3; simp at h3
          · exact hl j (by omega) h2 h3
    · rw [if_neg hlt]
      exact ⟨[], rfl, fun j h1 h2 _ => by omega⟩

/-- C59 at work on global variables: every word of the variable that may hold a pointer is offered to the work list. -/
theorem C59_global_partial (t : Ty) (ht : Supported t) :
    ∃ r l, rtypeOf t = some r ∧ scanGlobal t r = some l ∧ ∀ o, PtrAt t o → o ∈ l := by
  obtain ⟨r, e, d⟩ := C59_describes_partial t ht
  have main : ∃ l, scanWords r ((r.lastPtr + 7) / 8) 0 = some l ∧ ∀ o, PtrAt t o → o ∈ l := by
    obtain ⟨l, el, hl⟩ := scanWords_mem d.bitmap ((r.lastPtr + 7) / 8) 0 (by omega)
    refine ⟨l, el, fun o ho => ?_⟩
    obtain ⟨h8, hlp, hb⟩ := d.covers o ho
    have := hl (o / 8) (Nat.zero_le _) (by omega) hb
    rwa [show 8 * (o / 8) = o by omega] at this
  obtain ⟨l, el, hl⟩ := main
  cases t with
  | ptr => exact ⟨r, [0], e, rfl, fun o ho => by cases ho; simp⟩
  | void => exact ⟨r, [], e, rfl, fun o ho => by cases ho⟩
  | int8 => exact ⟨r, [], e, rfl, fun o ho => by cases ho⟩
  | int16 => exact ⟨r, [], e, rfl, fun o ho => by cases ho⟩
  | int32 => exact ⟨r, [], e, rfl, fun o ho => by cases ho⟩
  | int64 => exact ⟨r, [], e, rfl, fun o ho => by cases ho⟩
  | any => exact absurd ht id
  | _ => exact ⟨r, l, e, el, hl⟩

/-! ### Where C59 fails -/

/-- C59 fails for a variable of type `any`: its value may be a pointer (offset 8), but the only bit set is that of the type
word.  The collector offers the type word of a global `any` to the work list and not its value. -/
theorem C59_any_counterexample : PtrAt .any 8 ∧ ∃ r, rtypeOf .any = some r ∧
    Bitmap.bit r.bits 1 = some false ∧ scanGlobal .any r = some [0] :=
  ⟨.any, ⟨16, 16, [1#8, 0, 0, 0, 0, 0, 0, 0]⟩, by decide +kernel, by decide +kernel, by decide +kernel⟩

/-- `struct { [u8; n] data; ref p }`. -/
def dataThenRef (n : Nat) : Ty := .struct (.cons (.arr .int8 n) (.cons .ptr .nil))

theorem dataThenRef_size : sizeOf (dataThenRef 65528) = 65536 := by decide +kernel

theorem dataThenRef_ptr : PtrAt (dataThenRef 65528) 65528 :=
  PtrAt.struct (k := 1) (a := 65528) (o := 0) rfl (by decide +kernel) .ptr

theorem repeat_bytes : ∀ n off, 0 < n → repeatBits (bitsOf true .int8) n off = ⟨[], off + n, off + n⟩
  | 0, _, h => absurd h (by decide)
  | n + 1, off, _ => by
    rw [repeatBits]
    by_cases h0 : n = 0
    · subst h0; simp [repeatBits, bitsOf]
    · rw [show (bitsOf true .int8 off).off = off + 1 by rw [bitsOf], repeat_bytes n (off + 1) (by omega)]
      simp [bitsOf]; omega

/-- C59 fails for a struct of 64 KiB: the last pointer is kept in sixteen bits and becomes 0, so the struct counts as free of
pointers although its last word is one.  The allocator puts it where the collector does not look. -/
theorem C59_large_counterexample : PtrAt (dataThenRef 65528) 65528 ∧
    ∃ r, rtypeOf (dataThenRef 65528) = some r ∧ r.heapSize = 65536 ∧ r.lastPtr = 0 := by
  refine ⟨dataThenRef_ptr, ?_⟩
  have hlast : (bitsOf false (dataThenRef 65528) 0).last = 65536 ∧ (bitsOf false (dataThenRef 65528) 0).idx = [8191] := by
    rw [dataThenRef, bitsOf, fieldBits, fieldBits, fieldBits, bitsOf.eq_11]
    rw [show alignUp 0 (alignOf (.arr .int8 65528)) = 0 by decide +kernel]
    rw [repeat_bytes 65528 0 (by decide)]
    rw [show alignUp (0 + 65528) (alignOf .ptr) = 65528 by decide +kernel, bitsOf]
    simp
  have g := bits_good false (dataThenRef 65528) 0 (.inr (Nat.zero_mod _))
  obtain ⟨b, e, _, _⟩ := bitmapOf_spec (size := sizeOf (dataThenRef 65528)) (fun i hi => by simpa using g.fits i hi)
  refine ⟨⟨65536, 0, b⟩, ?_, rfl, rfl⟩
  have hsz := dataThenRef_size
  unfold dataThenRef at *
  rw [rtypeOf, if_neg (by omega)]
  dsimp only
  rw [e, hlast.1, hsz]
  rfl

/-- C59 as a whole is false. -/
theorem C59_counterexample : ¬ ∀ t, ∃ r, rtypeOf t = some r ∧ Describes r t := by
  intro h
  obtain ⟨r, e, d⟩ := h .any
  obtain ⟨_, r', e', hb, _⟩ := C59_any_counterexample
  rw [e] at e'
  cases e'
  have := (d.covers 8 .any).2.2
  rw [hb] at this
  simp at this

/-! ### C60 -/

/-- The offsets the compiler uses to reach the fields, in order. -/
def offsets (fs : Tys) : List (Option Nat) := (List.range fs.toList.length).map (fieldOffset fs)

theorem rtypeOffsets_get : ∀ (ts : Tys) (off k : Nat), (rtypeOffsets ts off)[k]? = offsetFrom ts off k
  | .nil, off, k => by simp [rtypeOffsets, offsetFrom]
  | .cons t rest, off, 0 => by simp [rtypeOffsets, offsetFrom]
  | .cons t rest, off, k + 1 => by
    rw [rtypeOffsets, offsetFrom, List.getElem?_cons_succ]
    exact rtypeOffsets_get rest _ k

theorem rtypeOffsets_length : ∀ (ts : Tys) (off : Nat), (rtypeOffsets ts off).length = ts.toList.length
  | .nil, _ => rfl
  | .cons t rest, off => by simp [rtypeOffsets, Tys.toList, rtypeOffsets_length rest]

theorem layout : ∀ (ts : Tys) (off : Nat), CLayout ts.toList off (rtypeOffsets ts off) (endFrom ts off)
  | .nil, off => by rw [rtypeOffsets, endFrom, Tys.toList]; exact .nil
  | .cons t rest, off => by
    rw [rtypeOffsets, endFrom, Tys.toList]
    refine .cons ?_ (layout rest _)
    split
    · next h => rw [h]; rfl
    · next h => exact alignUp_roundUp (powAlign t) h

/-- C60: the fields of a struct (or the elements of a tuple) have the offsets a C compiler gives them, field access and
reflection agree on them, and the size of the whole is where the last field ends, rounded up to the largest alignment. -/
theorem C60_layout (fs : Tys) :
    (∀ k, fieldOffset fs k = (rtypeOffsets fs 0)[k]?) ∧ (rtypeOffsets fs 0).length = fs.toList.length ∧
    ∃ e, CLayout fs.toList 0 (rtypeOffsets fs 0) e ∧
      (if alignOf (.struct fs) = 0 then sizeOf (.struct fs) = e else IsRoundUp e (alignOf (.struct fs)) (sizeOf (.struct fs))) ∧
      sizeOf (.tuple fs) = sizeOf (.struct fs) ∧ alignOf (.tuple fs) = alignOf (.struct fs) := by
  refine ⟨fun k => (rtypeOffsets_get fs 0 k).symm, rtypeOffsets_length fs 0, endFrom fs 0, layout fs 0, ?_, ?_, ?_⟩
  · rw [alignOf, sizeOf]
    split
    · next h => rw [h]; rfl
    · next h => exact alignUp_roundUp (powMax fs) h
  · rw [sizeOf, sizeOf]
  · rw [alignOf, alignOf]

theorem offset_lt : ∀ (ts : Tys) (off j k : Nat) {t u : Ty} {a b : Nat}, j < k → ts.toList[j]? = some t → ts.toList[k]? = some u →
    offsetFrom ts off j = some a → offsetFrom ts off k = some b → a + sizeOf t ≤ b
  | .nil, _, _, _, _, _, _, _, _, h, _, _, _ => by simp [Tys.toList] at h
  | .cons v rest, off, 0, k + 1, t, u, a, b, _, h1, h2, h3, h4 => by
    simp only [Tys.toList, List.getElem?_cons_zero, List.getElem?_cons_succ, Option.some.injEq] at h1 h2
    subst h1
    simp only [offsetFrom, Option.some.injEq] at h3 h4
    subst h3
    exact (offset_spec rest _ k h2 h4).1
  | .cons v rest, off, j + 1, k + 1, t, u, a, b, h, h1, h2, h3, h4 => by
    simp only [Tys.toList, List.getElem?_cons_succ] at h1 h2
    rw [offsetFrom] at h3 h4
    exact offset_lt rest _ j k (by omega) h1 h2 h3 h4

/-- C60: no two fields overlap, every field lies inside the struct and at its own alignment, wherever the struct is placed at
its alignment; and so does every element of an array of such structs. -/
theorem C60_fields (fs : Tys) (j : Nat) (t : Ty) (a : Nat) (hj : fs.toList[j]? = some t) (ha : fieldOffset fs j = some a) :
    a + sizeOf t ≤ sizeOf (.struct fs) ∧
    (∀ k u b, fs.toList[k]? = some u → fieldOffset fs k = some b → j ≠ k → a + sizeOf t ≤ b ∨ b + sizeOf u ≤ a) ∧
    (alignOf t ≠ 0 → ∀ base i, base % alignOf (.struct fs) = 0 → (base + i * sizeOf (.struct fs) + a) % alignOf t = 0) := by
  obtain ⟨h1, h2, h3, h4⟩ := offset_spec fs 0 j hj ha
  have hx := le_alignUp (n := endFrom fs 0) (powMax fs)
  refine ⟨by rw [sizeOf]; omega, fun k u b hk hb hne => ?_, fun hn base i hbase => ?_⟩
  · rcases Nat.lt_or_gt_of_ne hne with h | h
    · exact .inl (offset_lt fs 0 j k h hj hk ha hb)
    · exact .inr (offset_lt fs 0 k j h hk hj hb ha)
  · have hb : Aligned base (alignOf t) := by
      refine aligned_mono (powAlign t) (powMax fs) h4 (.inr ?_)
      rw [alignOf] at hbase; exact hbase
    have hs : Aligned (i * sizeOf (.struct fs)) (alignOf t) := by
      refine aligned_mono (powAlign t) (powMax fs) h4 ?_
      have := aligned_mul (n := i) (size_aligned (.struct fs))
      rw [alignOf] at this; exact this
    rcases aligned_add (aligned_add hb hs) h3 with h | h
    · exact absurd h hn
    · exact h

theorem declared_ptr (fs : Tys) (hs : ∀ t ∈ fs.toList, t = .ptr ∨ t = .int64) (o : Nat) :
    PtrAt (.struct fs) o ↔ ∃ k, fs.toList[k]? = some .ptr ∧ fieldOffset fs k = some o := by
  constructor
  · intro h
    cases h with
    | @struct _ k t a o h1 h2 h3 =>
      rcases hs t (List.mem_of_getElem? h1) with e | e
      · subst e
        cases h3
        exact ⟨k, h1, h2⟩
      · subst e; cases h3
  · rintro ⟨k, h1, h2⟩
    have := PtrAt.struct h1 h2 .ptr
    rwa [Nat.add_zero] at this

/-- C60 for the built-in containers: their headers have the size and the pointers of the C structures that hold them. -/
theorem C60_headers (h : Header) : sizeOf (.header h) = sizeOf (.struct h.decl) ∧ alignOf (.header h) = alignOf (.struct h.decl) ∧
    ∀ o, PtrAt (.header h) o ↔ PtrAt (.struct h.decl) o := by
  refine ⟨by cases h <;> decide +kernel, by cases h <;> decide +kernel, fun o => ?_⟩
  rw [declared_ptr _ (by cases h <;> simp [Header.decl, Tys.toList])]
  constructor
  · intro hp
    cases hp with
    | header ho =>
      cases h <;> simp only [Header.pointers, List.mem_cons, List.not_mem_nil, or_false] at ho
      · subst ho; exact ⟨0, rfl, by decide +kernel⟩
      · subst ho; exact ⟨0, rfl, by decide +kernel⟩
      · rcases ho with e | e | e <;> subst e
        · exact ⟨0, rfl, by decide +kernel⟩
        · exact ⟨1, rfl, by decide +kernel⟩
        · exact ⟨2, rfl, by decide +kernel⟩
      · rcases ho with e | e <;> subst e
        · exact ⟨0, rfl, by decide +kernel⟩
        · exact ⟨1, rfl, by decide +kernel⟩
      · rcases ho with e | e <;> subst e
        · exact ⟨0, rfl, by decide +kernel⟩
        · exact ⟨1, rfl, by decide +kernel⟩
  · rintro ⟨k, h1, h2⟩
    refine .header ?_
    have key : ∀ k < h.decl.toList.length, h.decl.toList[k]? matches some .ptr →
        ∀ o, fieldOffset h.decl k = some o → o ∈ h.pointers := by
      cases h <;> decide +kernel
    exact key k (List.getElem?_eq_some_iff.mp h1).1 (by rw [h1]) o h2

/-! ### Concrete cases -/

/-- `struct { u8 a; struct { u16 b; ref c } d; [(u8, string); 2] e; any f; u32 g }`. -/
def sample : Ty := .struct (.cons .int8 (.cons (.struct (.cons .int16 (.cons .ptr .nil)))
  (.cons (.arr (.tuple (.cons .int8 (.cons (.header .string) .nil))) 2) (.cons .any (.cons .int32 .nil)))))

/-- The hypothesis of C59 is met by a type with pointers in several places, and the description has exactly the bits of
the reference (2), the two strings (4, 11) and the `any` (17, 18). -/
example : Supported sample := by show sizeOf _ < 65536; decide +kernel
example : (rtypeOf sample).map (fun r => (r.heapSize, r.lastPtr)) = some (160, 152) := by decide +kernel
example : (rtypeOf sample).map (·.bits) = some ([0x14#8, 0x08#8, 0x06#8] ++ List.replicate 21 0#8) := by decide +kernel
example : PtrAt sample 88 :=
  PtrAt.struct (k := 2) (a := 24) (o := 64) rfl (by decide +kernel)
    (PtrAt.arr (i := 1) (o := 8) (by decide) (PtrAt.tuple (k := 1) (a := 8) (o := 0) rfl (by decide +kernel) (.header (by simp [Header.pointers]))))

/-- Offsets of the fields of the same struct. -/
example : rtypeOffsets (.cons .int8 (.cons .int32 (.cons .int16 (.cons .int64 (.cons .int8 .nil))))) 0 = [0, 4, 8, 16, 24] := by
  decide +kernel
example : sizeOf (.struct (.cons .int8 (.cons .int32 (.cons .int16 (.cons .int64 (.cons .int8 .nil)))))) = 32 := by decide +kernel

/-- A global of the sample type has its pointer words read. -/
example : ((rtypeOf sample).bind (scanGlobal sample)) = some [16, 32, 88, 136, 144] := by decide +kernel

end Nature.TypeLayout
