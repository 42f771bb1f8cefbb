import Verif.TypeLayout.Spec
import Verif.Bitmap.Lemmas
namespace Nature.TypeLayout
open Nature.Bitmap (Bytes)

/-! ### Rounding up -/

/-- The alignments that occur. -/
def PowAlign (a : Nat) : Prop := a = 0 ∨ a = 1 ∨ a = 2 ∨ a = 4 ∨ a = 8

theorem alignUp_zero (n : Nat) : alignUp n 0 = n := rfl

theorem alignUp_pow (n k : Nat) : alignUp n (2 ^ k) = (n + 2 ^ k - 1) - (n + 2 ^ k - 1) % 2 ^ k := by
  have : (2 : Nat) ^ k ≠ 0 := by exact Nat.pos_iff_ne_zero.mp (Nat.two_pow_pos k)
  rw [alignUp, if_neg this, Nat.and_two_pow_sub_one_eq_mod]

theorem alignUp_one (n : Nat) : alignUp n 1 = n := by have := alignUp_pow n 0; simp at this; omega
theorem alignUp_two (n : Nat) : alignUp n 2 = (n + 1) - (n + 1) % 2 := by have := alignUp_pow n 1; simpa using this
theorem alignUp_four (n : Nat) : alignUp n 4 = (n + 3) - (n + 3) % 4 := by have := alignUp_pow n 2; simpa using this
theorem alignUp_eight (n : Nat) : alignUp n 8 = (n + 7) - (n + 7) % 8 := by have := alignUp_pow n 3; simpa using this

/-- `off` may hold something of alignment `a`. -/
def Aligned (off a : Nat) : Prop := a = 0 ∨ off % a = 0

theorem le_alignUp {n a : Nat} (ha : PowAlign a) : n ≤ alignUp n a := by
  rcases ha with h | h | h | h | h <;> subst h
  · rw [alignUp_zero]; omega
  · rw [alignUp_one]; omega
  · rw [alignUp_two]; omega
  · rw [alignUp_four]; omega
  · rw [alignUp_eight]; omega

theorem alignUp_aligned {n a : Nat} (ha : PowAlign a) : Aligned (alignUp n a) a := by
  rcases ha with h | h | h | h | h <;> subst h
  · exact .inl rfl
  · right; rw [alignUp_one]; omega
  · right; rw [alignUp_two]; omega
  · right; rw [alignUp_four]; omega
  · right; rw [alignUp_eight]; omega

theorem alignUp_add {b n a : Nat} (ha : PowAlign a) (hb : Aligned b a) : alignUp (b + n) a = b + alignUp n a := by
  rcases hb with h0 | hb
  · subst h0; rfl
  rcases ha with h | h | h | h | h <;> subst h
  · rfl
  · simp only [alignUp_one]
  · simp only [alignUp_two]; omega
  · simp only [alignUp_four]; omega
  · simp only [alignUp_eight]; omega

theorem alignUp_least {n a m : Nat} (ha : PowAlign a) (h0 : a ≠ 0) (hm : n ≤ m) (hd : m % a = 0) : alignUp n a ≤ m := by
  rcases ha with h | h | h | h | h <;> subst h
  · exact absurd rfl h0
  · rw [alignUp_one]; omega
  · rw [alignUp_two]; omega
  · rw [alignUp_four]; omega
  · rw [alignUp_eight]; omega

theorem alignUp_roundUp {n a : Nat} (ha : PowAlign a) (h0 : a ≠ 0) : IsRoundUp n a (alignUp n a) := by
  refine ⟨le_alignUp ha, ?_, fun m hm hd => alignUp_least ha h0 hm hd⟩
  rcases alignUp_aligned (n := n) ha with h | h
  · exact absurd h h0
  · exact h

theorem alignUp_self {n a : Nat} (ha : PowAlign a) (h : Aligned n a) : alignUp n a = n := by
  have := alignUp_add (b := n) (n := 0) ha h
  rcases ha with e | e | e | e | e <;> subst e <;>
    simp only [Nat.add_zero, alignUp_zero, alignUp_one, alignUp_two, alignUp_four, alignUp_eight] at * <;> omega

/-- A smaller alignment is met wherever a larger is. -/
theorem aligned_mono {off a b : Nat} (ha : PowAlign a) (hb : PowAlign b) (h : a ≤ b) (hl : Aligned off b) : Aligned off a := by
  unfold Aligned at *
  rcases ha with e | e | e | e | e <;> rcases hb with e' | e' | e' | e' | e' <;> subst e <;> subst e' <;> omega

theorem powAlign_max {a b : Nat} (ha : PowAlign a) (hb : PowAlign b) : PowAlign (max a b) := by
  rcases Nat.le_total a b with h | h
  · rw [Nat.max_eq_right h]; exact hb
  · rw [Nat.max_eq_left h]; exact ha

mutual
theorem powAlign : (t : Ty) → PowAlign (alignOf t)
  | .void => by simp [alignOf, PowAlign]
  | .int8 => by simp [alignOf, PowAlign]
  | .int16 => by simp [alignOf, PowAlign]
  | .int32 => by simp [alignOf, PowAlign]
  | .int64 => by simp [alignOf, PowAlign]
  | .ptr => by simp [alignOf, PowAlign]
  | .header _ => by simp [alignOf, PowAlign]
  | .any => by simp [alignOf, PowAlign]
  | .union _ => by simp [alignOf, PowAlign]
  | .tagged _ => by simp [alignOf, PowAlign]
  | .arr t _ => by rw [alignOf]; exact powAlign t
  | .struct fs => by rw [alignOf]; exact powMax fs
  | .tuple es => by rw [alignOf]; exact powMax es
theorem powMax : (ts : Tys) → PowAlign (maxAlign ts)
  | .nil => by simp [maxAlign, PowAlign]
  | .cons t rest => by rw [maxAlign]; exact powAlign_max (powAlign t) (powMax rest)
end

theorem pow8 : PowAlign 8 := by simp [PowAlign]

/-! ### Sizes -/

theorem aligned_add {a b c : Nat} (h1 : Aligned a c) (h2 : Aligned b c) : Aligned (a + b) c := by
  rcases h1 with h | h
  · exact .inl h
  · rcases h2 with h' | h'
    · exact .inl h'
    · right; rw [Nat.add_mod, h, h']; simp

theorem aligned_mul {n a c : Nat} (h : Aligned a c) : Aligned (n * a) c := by
  rcases h with h | h
  · exact .inl h
  · right; rw [Nat.mul_mod, h]; simp

theorem size_aligned : (t : Ty) → Aligned (sizeOf t) (alignOf t)
  | .void => .inl rfl
  | .int8 => .inr rfl
  | .int16 => .inr rfl
  | .int32 => .inr rfl
  | .int64 => .inr rfl
  | .ptr => .inr rfl
  | .header h => by right; cases h <;> rfl
  | .any => .inr rfl
  | .union es => by
    rw [sizeOf, alignOf]; exact aligned_add (.inr rfl) (alignUp_aligned pow8)
  | .tagged es => by
    rw [sizeOf, alignOf]; exact aligned_add (.inr rfl) (alignUp_aligned pow8)
  | .arr t n => by rw [sizeOf, alignOf]; exact aligned_mul (size_aligned t)
  | .struct fs => by rw [sizeOf, alignOf]; exact alignUp_aligned (powMax fs)
  | .tuple es => by rw [sizeOf, alignOf]; exact alignUp_aligned (powMax es)

theorem le_endFrom : (ts : Tys) → (off : Nat) → off ≤ endFrom ts off
  | .nil, off => by rw [endFrom]; exact Nat.le_refl _
  | .cons t rest, off => by
    rw [endFrom]
    have h1 := le_alignUp (n := off) (powAlign t)
    have h2 := le_endFrom rest (alignUp off (alignOf t) + sizeOf t)
    omega

/-- A field lies between where the fields may start and where they end, at its own alignment. -/
theorem offset_spec : (ts : Tys) → (off k : Nat) → {t : Ty} → {a : Nat} → ts.toList[k]? = some t → offsetFrom ts off k = some a →
    off ≤ a ∧ a + sizeOf t ≤ endFrom ts off ∧ Aligned a (alignOf t) ∧ alignOf t ≤ maxAlign ts
  | .nil, off, k, t, a, h, _ => by simp [Tys.toList] at h
  | .cons t rest, off, 0, t', a, h, h' => by
    simp only [Tys.toList, List.getElem?_cons_zero, Option.some.injEq] at h
    subst h
    simp only [offsetFrom, Option.some.injEq] at h'
    subst h'
    rw [endFrom, maxAlign]
    exact ⟨le_alignUp (powAlign t), le_endFrom rest _, alignUp_aligned (powAlign t), by omega⟩
  | .cons t rest, off, k + 1, t', a, h, h' => by
    simp only [Tys.toList, List.getElem?_cons_succ] at h
    rw [offsetFrom] at h'
    have ih := offset_spec rest _ k h h'
    have h1 := le_alignUp (n := off) (powAlign t)
    rw [endFrom, maxAlign]
    exact ⟨by omega, ih.2.1, ih.2.2.1, by omega⟩

theorem le_maxSize : (ts : Tys) → {t : Ty} → t ∈ ts.toList → sizeOf t ≤ maxSize ts
  | .nil, t, h => by simp [Tys.toList] at h
  | .cons u rest, t, h => by
    simp only [Tys.toList, List.mem_cons] at h
    rw [maxSize]
    rcases h with h | h
    · subst h; omega
    · have := le_maxSize rest h; omega

theorem union_payload {es : Tys} {t : Ty} (h : t ∈ es.toList) : 8 + sizeOf t ≤ sizeOf (.union es) := by
  cases es with
  | nil => simp [Tys.toList] at h
  | cons u rest =>
    have h1 := le_maxSize _ h
    rw [maxSize] at h1
    rw [sizeOf, unionPayload]
    have h2 := le_alignUp (n := max (sizeOf t) (maxSize rest)) pow8
    have h3 := le_alignUp (n := max (sizeOf u) (maxSize rest)) pow8
    omega

theorem tagged_payload {es : Tys} {t : Ty} (h : t ∈ es.toList) : 8 + sizeOf t ≤ sizeOf (.tagged es) := by
  rw [sizeOf]
  have h1 := le_maxSize _ h
  have h2 := le_alignUp (n := if maxSize es = 0 then 8 else maxSize es) pow8
  split at h2 <;> simp_all <;> omega

/-- A pointer is a whole aligned word of its value. -/
theorem ptrAt_word {t : Ty} {o : Nat} (h : PtrAt t o) : alignOf t = 8 ∧ o % 8 = 0 ∧ o + 8 ≤ sizeOf t := by
  have mod8 : ∀ {a : Nat}, Aligned a 8 → a % 8 = 0 := fun h => by
    rcases h with h | h
    · exact absurd h (by decide)
    · exact h
  have le8 : ∀ ts : Tys, maxAlign ts ≤ 8 := fun ts => by
    rcases powMax ts with h | h | h | h | h <;> omega
  induction h with
  | ptr => exact ⟨rfl, rfl, by decide⟩
  | @header h o ho =>
    cases h <;> simp only [Header.pointers, List.mem_cons, List.not_mem_nil, or_false] at ho <;>
      refine ⟨rfl, ?_, ?_⟩ <;> (try simp only [sizeOf, Header.size]) <;> omega
  | any => exact ⟨rfl, rfl, by decide⟩
  | @union es t o hm _ ih =>
    have := union_payload hm
    exact ⟨rfl, by omega, by omega⟩
  | @tagged es t o hm _ ih =>
    have := tagged_payload hm
    exact ⟨rfl, by omega, by omega⟩
  | @arr t n i o hi _ ih =>
    have ha := size_aligned t
    rw [ih.1] at ha
    have hm := mod8 (aligned_mul (n := i) ha)
    refine ⟨by rw [alignOf]; exact ih.1, by omega, ?_⟩
    rw [sizeOf]
    have : (i + 1) * sizeOf t ≤ n * sizeOf t := Nat.mul_le_mul_right _ hi
    rw [Nat.succ_mul] at this
    omega
  | @struct fs k t a o h1 h2 _ ih =>
    obtain ⟨_, h4, h5, h6⟩ := offset_spec fs 0 k h1 h2
    rw [ih.1] at h5 h6
    have := le8 fs
    have hm := mod8 h5
    have hx := le_alignUp (n := endFrom fs 0) (powMax fs)
    exact ⟨by rw [alignOf]; omega, by omega, by rw [sizeOf]; omega⟩
  | @tuple fs k t a o h1 h2 _ ih =>
    obtain ⟨_, h4, h5, h6⟩ := offset_spec fs 0 k h1 h2
    rw [ih.1] at h5 h6
    have := le8 fs
    have hm := mod8 h5
    have hx := le_alignUp (n := endFrom fs 0) (powMax fs)
    exact ⟨by rw [alignOf]; omega, by omega, by rw [sizeOf]; omega⟩

/-! ### Bits of a type -/

/-- The bits a type at `off` ends up with are right. -/
structure Good (b : Bits) (t : Ty) (off : Nat) : Prop where
  off_eq : b.off = off + sizeOf t
  covers : ∀ o, PtrAt t o → (off + o) / 8 ∈ b.idx ∧ off + o + 8 ≤ b.last
  exact : ∀ i ∈ b.idx, ∃ o, 8 * i = off + o ∧ (PtrAt t o ∨ InUnion t o)
  fits : ∀ i ∈ b.idx, 8 * i + 8 ≤ off + sizeOf t
  last : b.last ≤ off + sizeOf t

/-- … and so are those of fields that may start at `base + x`. -/
structure GoodF (b : Bits) (ts : Tys) (base x : Nat) : Prop where
  off_eq : b.off = base + endFrom ts x
  covers : ∀ k t a o, ts.toList[k]? = some t → offsetFrom ts x k = some a → PtrAt t o →
    (base + a + o) / 8 ∈ b.idx ∧ base + a + o + 8 ≤ b.last
  exact : ∀ i ∈ b.idx, ∃ k t a o, ts.toList[k]? = some t ∧ offsetFrom ts x k = some a ∧ 8 * i = base + a + o ∧
    (PtrAt t o ∨ InUnion t o)
  fits : ∀ i ∈ b.idx, 8 * i + 8 ≤ base + endFrom ts x
  last : b.last ≤ base + endFrom ts x

theorem good_scalar {t : Ty} {n off l : Nat} (hs : sizeOf t = n) (hp : ∀ o, ¬ PtrAt t o) (hl : l ≤ off + n) :
    Good ⟨[], off + n, l⟩ t off := by
  subst hs
  exact ⟨rfl, fun o h => absurd h (hp o), fun i hi => absurd hi (by simp), fun i hi => absurd hi (by simp), hl⟩

theorem good_repeat {f : Nat → Bits} {t : Ty} (hf : ∀ off, Aligned off (alignOf t) → Good (f off) t off) :
    ∀ n off, Aligned off (alignOf t) →
      (repeatBits f n off).off = off + n * sizeOf t ∧
      (∀ i o, i < n → PtrAt t o → (off + (i * sizeOf t + o)) / 8 ∈ (repeatBits f n off).idx ∧
        off + (i * sizeOf t + o) + 8 ≤ (repeatBits f n off).last) ∧
      (∀ i ∈ (repeatBits f n off).idx, ∃ j o, j < n ∧ 8 * i = off + (j * sizeOf t + o) ∧ (PtrAt t o ∨ InUnion t o)) ∧
      (∀ i ∈ (repeatBits f n off).idx, 8 * i + 8 ≤ off + n * sizeOf t) ∧
      (repeatBits f n off).last ≤ off + n * sizeOf t
  | 0, off, _ => by simp [repeatBits]
  | n + 1, off, ha => by
    have g := hf off ha
    have ha' : Aligned (off + sizeOf t) (alignOf t) := aligned_add ha (size_aligned t)
    obtain ⟨h1, h2, h3, h4, h5⟩ := good_repeat hf n (off + sizeOf t) ha'
    have hs : (n + 1) * sizeOf t = n * sizeOf t + sizeOf t := Nat.succ_mul _ _
    rw [repeatBits]
    dsimp only
    rw [g.off_eq]
    refine ⟨by omega, fun i o hi hp => ?_, fun i hi => ?_, fun i hi => ?_, ?_⟩
    · cases i with
      | zero =>
        obtain ⟨c1, c2⟩ := g.covers o hp
        simp only [Nat.zero_mul, Nat.zero_add]
        exact ⟨List.mem_append_left _ c1, by omega⟩
      | succ i =>
        obtain ⟨c1, c2⟩ := h2 i o (by omega) hp
        have : off + ((i + 1) * sizeOf t + o) = off + sizeOf t + (i * sizeOf t + o) := by rw [Nat.succ_mul]; omega
        rw [this]
        exact ⟨List.mem_append_right _ c1, by omega⟩
    · rcases List.mem_append.mp hi with hi | hi
      · obtain ⟨o, e, hp⟩ := g.exact i hi
        exact ⟨0, o, by omega, by rw [Nat.zero_mul]; omega, hp⟩
      · obtain ⟨j, o, hj, e, hp⟩ := h3 i hi
        exact ⟨j + 1, o, by omega, by rw [Nat.succ_mul j]; omega, hp⟩
    · rcases List.mem_append.mp hi with hi | hi
      · have := g.fits i hi; omega
      · have := h4 i hi; omega
    · have := g.last; omega

theorem mod8_of {a : Nat} (h : Aligned a 8) : a % 8 = 0 := by
  rcases h with h | h
  · exact absurd h (by decide)
  · exact h

theorem any_size : sizeOf .any = 16 := rfl

theorem union_mod (es : Tys) : sizeOf (.union es) % 8 = 0 := mod8_of (size_aligned (.union es))
theorem tagged_mod (es : Tys) : sizeOf (.tagged es) % 8 = 0 := mod8_of (size_aligned (.tagged es))

theorem good_union {t : Ty} {off : Nat} (ha : off % 8 = 0) (hm : sizeOf t % 8 = 0)
    (hin : ∀ o, o < sizeOf t → InUnion t o) : Good (unionBits off (sizeOf t)) t off := by
  have hn : alignUp (sizeOf t) 8 / 8 * 8 = sizeOf t := by rw [alignUp_self pow8 (.inr hm)]; omega
  refine ⟨rfl, fun o ho => ?_, fun i hi => ?_, fun i hi => ?_, ?_⟩
  · have hw := ptrAt_word ho
    simp only [unionBits, List.mem_map, List.mem_range]
    exact ⟨⟨o / 8, by omega, by omega⟩, by omega⟩
  · simp only [unionBits, List.mem_map, List.mem_range] at hi
    obtain ⟨j, hj, rfl⟩ := hi
    exact ⟨8 * j, by omega, .inr (hin _ (by omega))⟩
  · simp only [unionBits, List.mem_map, List.mem_range] at hi
    obtain ⟨j, hj, rfl⟩ := hi
    omega
  · simp only [unionBits]; omega

theorem tagged_ptr {es : Tys} {o : Nat} (h : PtrAt (.tagged es) o) : 8 ≤ o := by
  cases h; omega

theorem good_tagged {es : Tys} {off : Nat} (ha : off % 8 = 0) : Good (taggedBits off (sizeOf (.tagged es))) (.tagged es) off := by
  have hm := tagged_mod es
  have hn : alignUp (sizeOf (.tagged es)) 8 / 8 * 8 = sizeOf (.tagged es) := by rw [alignUp_self pow8 (.inr hm)]; omega
  refine ⟨rfl, fun o ho => ?_, fun i hi => ?_, fun i hi => ?_, ?_⟩
  · have hw := ptrAt_word ho
    have h8 := tagged_ptr ho
    simp only [taggedBits, List.mem_map, List.mem_range]
    refine ⟨⟨o / 8 - 1, by omega, by omega⟩, ?_⟩
    rw [if_pos (by omega)]; omega
  · simp only [taggedBits, List.mem_map, List.mem_range] at hi
    obtain ⟨j, hj, rfl⟩ := hi
    exact ⟨8 * (j + 1), by omega, .inr (.tagged (by omega) (by omega))⟩
  · simp only [taggedBits, List.mem_map, List.mem_range] at hi
    obtain ⟨j, hj, rfl⟩ := hi
    omega
  · simp only [taggedBits]; split <;> omega

theorem header_pointers (h : Header) (o : Nat) : o ∈ h.pointers ↔ ∃ i, i < h.slots ∧ o = 8 * i := by
  constructor
  · intro ho
    cases h <;> simp only [Header.pointers, List.mem_cons, List.not_mem_nil, or_false] at ho <;>
      refine ⟨o / 8, ?_, ?_⟩ <;> (try simp only [Header.slots]) <;> omega
  · rintro ⟨i, hi, rfl⟩
    cases h <;> simp only [Header.pointers, Header.slots, List.mem_cons, List.not_mem_nil, or_false] at * <;> omega

theorem header_fits (h : Header) : h.slots * 8 ≤ h.size := by cases h <;> decide

theorem good_header {h : Header} {off : Nat} (ha : off % 8 = 0) : Good (headerBits off h) (.header h) off := by
  have hf := header_fits h
  refine ⟨rfl, fun o ho => ?_, fun i hi => ?_, fun i hi => ?_, ?_⟩
  · cases ho with
    | header ho =>
      obtain ⟨i, hi, rfl⟩ := (header_pointers h o).mp ho
      simp only [headerBits, List.mem_map, List.mem_range]
      exact ⟨⟨i, hi, by omega⟩, by omega⟩
  · simp only [headerBits, List.mem_map, List.mem_range] at hi
    obtain ⟨j, hj, rfl⟩ := hi
    exact ⟨8 * j, by omega, .inl (.header ((header_pointers h _).mpr ⟨j, hj, rfl⟩))⟩
  · simp only [headerBits, List.mem_map, List.mem_range] at hi
    obtain ⟨j, hj, rfl⟩ := hi
    simp only [sizeOf]; omega
  · simp only [headerBits, sizeOf]; omega

mutual
theorem bits_good : (a : Bool) → (t : Ty) → (off : Nat) → Aligned off (alignOf t) → Good (bitsOf a t off) t off
  | a, .void, off, _ => by
    rw [bitsOf]; exact good_scalar (n := 0) rfl (fun o h => by cases h) (by cases a <;> simp)
  | a, .int8, off, _ => by
    rw [bitsOf]; exact good_scalar rfl (fun o h => by cases h) (by cases a <;> simp)
  | a, .int16, off, _ => by
    rw [bitsOf]; exact good_scalar rfl (fun o h => by cases h) (by cases a <;> simp)
  | a, .int32, off, _ => by
    rw [bitsOf]; exact good_scalar rfl (fun o h => by cases h) (by cases a <;> simp)
  | a, .int64, off, _ => by
    rw [bitsOf]; exact good_scalar rfl (fun o h => by cases h) (by cases a <;> simp)
  | a, .ptr, off, ha => by
    rw [bitsOf]
    have := mod8_of ha
    refine ⟨rfl, fun o ho => ?_, fun i hi => ?_, fun i hi => ?_, ?_⟩
    · cases ho; simp
    · simp only [List.mem_cons, List.not_mem_nil, or_false] at hi
      subst hi
      exact ⟨0, by omega, .inl .ptr⟩
    · simp only [List.mem_cons, List.not_mem_nil, or_false] at hi
      subst hi
      simp only [sizeOf]; omega
    · simp only [sizeOf]; omega
  | a, .header h, off, ha => by rw [bitsOf]; exact good_header (mod8_of ha)
  | a, .any, off, ha => by
    rw [bitsOf, ← any_size]; exact good_union (mod8_of ha) rfl (fun o h => .any h)
  | a, .union es, off, ha => by rw [bitsOf]; exact good_union (mod8_of ha) (union_mod es) (fun o h => .union h)
  | a, .tagged es, off, ha => by rw [bitsOf]; exact good_tagged (mod8_of ha)
  | a, .arr t n, off, ha => by
    rw [alignOf] at ha
    rw [bitsOf]
    obtain ⟨h1, h2, h3, h4, h5⟩ := good_repeat (fun off => bits_good true t off) n off ha
    refine ⟨h1, fun o ho => ?_, fun i hi => ?_, fun i hi => ?_, ?_⟩
    · cases ho with
      | arr hi hp => exact h2 _ _ hi hp
    · obtain ⟨j, o, hj, e, hp⟩ := h3 i hi
      refine ⟨_, e, ?_⟩
      rcases hp with hp | hp
      · exact .inl (.arr hj hp)
      · exact .inr (.arr hj hp)
    · rw [sizeOf]; exact h4 i hi
    · rw [sizeOf]; exact h5
  | a, .struct fs, off, ha => by
    rw [alignOf] at ha
    have g := fields_good fs off 0 ha
    rw [Nat.add_zero] at g
    have hu := alignUp_add (n := endFrom fs 0) (powMax fs) ha
    have hx := le_alignUp (n := endFrom fs 0) (powMax fs)
    rw [bitsOf]
    refine ⟨?_, fun o ho => ?_, fun i hi => ?_, fun i hi => ?_, ?_⟩
    · show alignUp (fieldBits fs off).off (maxAlign fs) = _
      rw [g.off_eq, hu, sizeOf]
    · cases ho with
      | struct h1 h2 h3 => rw [← Nat.add_assoc]; exact g.covers _ _ _ _ h1 h2 h3
    · obtain ⟨k, t, b, o, h1, h2, e, hp⟩ := g.exact i hi
      refine ⟨b + o, by omega, ?_⟩
      rcases hp with hp | hp
      · exact .inl (.struct h1 h2 hp)
      · exact .inr (.struct h1 h2 hp)
    · have := g.fits i hi; rw [sizeOf]; omega
    · have := g.last; rw [sizeOf]; dsimp only; omega
  | a, .tuple fs, off, ha => by
    rw [alignOf] at ha
    have g := fields_good fs off 0 ha
    rw [Nat.add_zero] at g
    have hu := alignUp_add (n := endFrom fs 0) (powMax fs) ha
    have hx := le_alignUp (n := endFrom fs 0) (powMax fs)
    rw [bitsOf]
    refine ⟨?_, fun o ho => ?_, fun i hi => ?_, fun i hi => ?_, ?_⟩
    · show alignUp (fieldBits fs off).off (maxAlign fs) = _
      rw [g.off_eq, hu, sizeOf]
    · cases ho with
      | tuple h1 h2 h3 => rw [← Nat.add_assoc]; exact g.covers _ _ _ _ h1 h2 h3
    · obtain ⟨k, t, b, o, h1, h2, e, hp⟩ := g.exact i hi
      refine ⟨b + o, by omega, ?_⟩
      rcases hp with hp | hp
      · exact .inl (.tuple h1 h2 hp)
      · exact .inr (.tuple h1 h2 hp)
    · have := g.fits i hi; rw [sizeOf]; omega
    · have := g.last; rw [sizeOf]; dsimp only; omega
theorem fields_good : (ts : Tys) → (base x : Nat) → Aligned base (maxAlign ts) → GoodF (fieldBits ts (base + x)) ts base x
  | .nil, base, x, _ => by
    rw [fieldBits]
    exact ⟨by rw [endFrom], fun k t a o h => by simp [Tys.toList] at h, fun i hi => absurd hi (by simp),
      fun i hi => absurd hi (by simp), by simp⟩
  | .cons t rest, base, x, ha => by
    rw [maxAlign] at ha
    have pm := powAlign_max (powAlign t) (powMax rest)
    have hat : Aligned base (alignOf t) := aligned_mono (powAlign t) pm (Nat.le_max_left _ _) ha
    have har : Aligned base (maxAlign rest) := aligned_mono (powMax rest) pm (Nat.le_max_right _ _) ha
    have e : alignUp (base + x) (alignOf t) = base + alignUp x (alignOf t) := alignUp_add (powAlign t) hat
    have g := bits_good false t (base + alignUp x (alignOf t)) (aligned_add hat (alignUp_aligned (powAlign t)))
    have r := fields_good rest base (alignUp x (alignOf t) + sizeOf t) har
    rw [← Nat.add_assoc] at r
    rw [fieldBits]
    rw [e, g.off_eq]
    have hle := le_endFrom rest (alignUp x (alignOf t) + sizeOf t)
    refine ⟨?_, fun k u a o hk hof hp => ?_, fun i hi => ?_, fun i hi => ?_, ?_⟩
    · rw [endFrom]; exact r.off_eq
    · cases k with
      | zero =>
        simp only [Tys.toList, List.getElem?_cons_zero, Option.some.injEq] at hk
        subst hk
        simp only [offsetFrom, Option.some.injEq] at hof
        subst hof
        have := g.covers o hp
        exact ⟨List.mem_append_left _ this.1, by dsimp only; omega⟩
      | succ k =>
        simp only [Tys.toList, List.getElem?_cons_succ] at hk
        rw [offsetFrom] at hof
        have := r.covers k u a o hk hof hp
        exact ⟨List.mem_append_right _ this.1, by dsimp only; omega⟩
    · rcases List.mem_append.mp hi with hi | hi
      · obtain ⟨o, e, hp⟩ := g.exact i hi
        exact ⟨0, t, _, o, rfl, rfl, e, hp⟩
      · obtain ⟨k, u, a, o, h1, h2, e, hp⟩ := r.exact i hi
        exact ⟨k + 1, u, a, o, by simpa [Tys.toList] using h1, by rw [offsetFrom]; exact h2, e, hp⟩
    · rw [endFrom]
      rcases List.mem_append.mp hi with hi | hi
      · have := g.fits i hi; omega
      · have := r.fits i hi; omega
    · rw [endFrom]
      have h1 := g.last
      have h2 := r.last
      exact Nat.max_le.mpr ⟨by omega, by omega⟩
end

/-! ### The bitmap -/

theorem bitmap_fold : ∀ (idx : List Nat) (b : Bytes), (∀ i ∈ idx, i < 8 * b.length) →
    ∃ b', idx.foldlM Bitmap.set b = some b' ∧ b'.length = b.length ∧
      ∀ j, Bitmap.bit b' j = if j ∈ idx then some true else Bitmap.bit b j
  | [], b, _ => ⟨b, rfl, rfl, fun j => by simp⟩
  | i :: rest, b, h => by
    obtain ⟨b1, e1, l1, s1⟩ := Bitmap.set_spec (h i (by simp))
    obtain ⟨b2, e2, l2, s2⟩ := bitmap_fold rest b1 (fun j hj => by rw [l1]; exact h j (by simp [hj]))
    refine ⟨b2, by simp [e1, e2], by omega, fun j => ?_⟩
    rw [s2, s1]
    by_cases h1 : j ∈ rest
    · simp [h1]
    · by_cases h2 : j = i
      · simp [h2]
      · simp [h1, h2]

theorem gcBitsSize_ge (size : Nat) : size ≤ 8 * gcBitsSize size := by
  rw [gcBitsSize, alignUp_eight, alignUp_eight]; omega

theorem zero_bit {n j : Nat} : Bitmap.bit (List.replicate n 0#8) j ≠ some true := by
  rw [Bitmap.bit_eq_map]
  intro h
  rw [List.getElem?_replicate] at h
  split at h <;> simp at h

theorem bitmapOf_spec {size : Nat} {idx : List Nat} (h : ∀ i ∈ idx, 8 * i + 8 ≤ size) :
    ∃ b, bitmapOf size idx = some b ∧ size ≤ 64 * b.length ∧ ∀ j, Bitmap.bit b j = some true ↔ j ∈ idx := by
  have hs := gcBitsSize_ge size
  obtain ⟨b, e, l, s⟩ := bitmap_fold idx (List.replicate (gcBitsSize size) 0#8) (fun i hi => by
    have := h i hi
    rw [List.length_replicate]; omega)
  rw [List.length_replicate] at l
  refine ⟨b, e, by omega, fun j => ?_⟩
  rw [s]
  constructor
  · intro hj
    by_cases hm : j ∈ idx
    · exact hm
    · rw [if_neg hm] at hj; exact absurd hj zero_bit
  · intro hj
    rw [if_pos hj]

end Nature.TypeLayout
