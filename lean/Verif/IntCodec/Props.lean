import Verif.IntCodec.Spec
import Verif.IntCodec.Lemmas
/-! C33: fixed-width integer serialisation round-trips. -/
namespace Nature.IntCodec
open Nature

/-- Signed writes produce the bytes of the unsigned pattern. -/
theorem i16_le_eq : write_i16_le = write_u16_le := by
  funext x; simp only [write_i16_le, write_u16_le]; repeat rw [sput_eq_put x _ (by omega)]
theorem i32_le_eq : write_i32_le = write_u32_le := by
  funext x; simp only [write_i32_le, write_u32_le]; repeat rw [sput_eq_put x _ (by omega)]
theorem i64_le_eq : write_i64_le = write_u64_le := by
  funext x; simp only [write_i64_le, write_u64_le]; repeat rw [sput_eq_put x _ (by omega)]
theorem i16_be_eq : write_i16_be = write_u16_be := by
  funext x; simp only [write_i16_be, write_u16_be]; repeat rw [sput_eq_put x _ (by omega)]
theorem i32_be_eq : write_i32_be = write_u32_be := by
  funext x; simp only [write_i32_be, write_u32_be]; repeat rw [sput_eq_put x _ (by omega)]
theorem i64_be_eq : write_i64_be = write_u64_be := by
  funext x; simp only [write_i64_be, write_u64_be]; repeat rw [sput_eq_put x _ (by omega)]

theorem u8_c (digits : Nat → Nat → List Nat) (h : ∀ v, digits 1 v = [v % 256]) : Codec 8 1 digits write_u8 read_8 where
  bytes := by intro x; rw [h]; simp [write_u8, Nat.mod_eq_of_lt x.isLt]
  round_trip := by intro x rest; rfl
  back := by
    intro bs hb
    match bs, hb with
    | b0 :: t, _ => exact ⟨b0, rfl, rfl⟩
    | [], h => simp at h
  short := by
    intro bs hb
    match bs, hb with
    | [], _ => rfl
    | _ :: _, h => simp at h

theorem u16_le : Codec 16 2 leDigits write_u16_le read_u16_le where
  bytes := by
    intro x
    have h : ∀ o, (put x o).toNat = x.toNat / 2 ^ o % 256 := fun o => put_toNat x o (by omega)
    simp [write_u16_le, leDigits, List.range, List.range.loop, h]
  round_trip := by
    intro x rest
    show Res.ok _ = Res.ok x
    congr 1
    apply BitVec.eq_of_getLsbD_eq
    intro i hi
    simp only [BitVec.getLsbD_or, gp _ _ _ hi]
    cases x.getLsbD i <;> simp <;> omega
  back := by
    intro bs hb
    match bs, hb with
    | b0 :: b1 :: t, _ =>
      refine ⟨_, rfl, ?_⟩
      simp only [write_u16_le, put_or]
      simp [put_get_same, put_get_ne]
    | [], h => simp at h
    | [_], h => simp at h
  short := by
    intro bs hb
    match bs, hb with
    | [], _ => rfl
    | [_], _ => rfl
    | _ :: _ :: _, h => simp at h; omega

theorem u16_be : Codec 16 2 beDigits write_u16_be read_u16_be where
  bytes := by
    intro x
    have h : ∀ o, (put x o).toNat = x.toNat / 2 ^ o % 256 := fun o => put_toNat x o (by omega)
    simp [write_u16_be, beDigits, leDigits, List.range, List.range.loop, h]
  round_trip := by
    intro x rest
    show Res.ok _ = Res.ok x
    congr 1
    apply BitVec.eq_of_getLsbD_eq
    intro i hi
    simp only [BitVec.getLsbD_or, gp _ _ _ hi]
    cases x.getLsbD i <;> simp <;> omega
  back := by
    intro bs hb
    match bs, hb with
    | b0 :: b1 :: t, _ =>
      refine ⟨_, rfl, ?_⟩
      simp only [write_u16_be, put_or]
      simp [put_get_same, put_get_ne]
    | [], h => simp at h
    | [_], h => simp at h
  short := by
    intro bs hb
    match bs, hb with
    | [], _ => rfl
    | [_], _ => rfl
    | _ :: _ :: _, h => simp at h; omega

theorem u32_le : Codec 32 4 leDigits write_u32_le read_u32_le where
  bytes := by
    intro x
    have h : ∀ o, (put x o).toNat = x.toNat / 2 ^ o % 256 := fun o => put_toNat x o (by omega)
    simp [write_u32_le, leDigits, List.range, List.range.loop, h]
  round_trip := by
    intro x rest
    show Res.ok _ = Res.ok x
    congr 1
    apply BitVec.eq_of_getLsbD_eq
    intro i hi
    simp only [BitVec.getLsbD_or, gp _ _ _ hi]
    cases x.getLsbD i <;> simp <;> omega
  back := by
    intro bs hb
    match bs, hb with
    | b0 :: b1 :: b2 :: b3 :: t, _ =>
      refine ⟨_, rfl, ?_⟩
      simp only [write_u32_le, put_or]
      simp [put_get_same, put_get_ne]
    | [], h => simp at h
    | [_], h => simp at h
    | [_, _], h => simp at h
    | [_, _, _], h => simp at h
  short := by
    intro bs hb
    match bs, hb with
    | [], _ => rfl
    | [_], _ => rfl
    | [_, _], _ => rfl
    | [_, _, _], _ => rfl
    | _ :: _ :: _ :: _ :: _, h => simp at h; omega

theorem u32_be : Codec 32 4 beDigits write_u32_be read_u32_be where
  bytes := by
    intro x
    have h : ∀ o, (put x o).toNat = x.toNat / 2 ^ o % 256 := fun o => put_toNat x o (by omega)
    simp [write_u32_be, beDigits, leDigits, List.range, List.range.loop, h]
  round_trip := by
    intro x rest
    show Res.ok _ = Res.ok x
    congr 1
    apply BitVec.eq_of_getLsbD_eq
    intro i hi
    simp only [BitVec.getLsbD_or, gp _ _ _ hi]
    cases x.getLsbD i <;> simp <;> omega
  back := by
    intro bs hb
    match bs, hb with
    | b0 :: b1 :: b2 :: b3 :: t, _ =>
      refine ⟨_, rfl, ?_⟩
      simp only [write_u32_be, put_or]
      simp [put_get_same, put_get_ne]
    | [], h => simp at h
    | [_], h => simp at h
    | [_, _], h => simp at h
    | [_, _, _], h => simp at h
  short := by
    intro bs hb
    match bs, hb with
    | [], _ => rfl
    | [_], _ => rfl
    | [_, _], _ => rfl
    | [_, _, _], _ => rfl
    | _ :: _ :: _ :: _ :: _, h => simp at h; omega

theorem u64_le : Codec 64 8 leDigits write_u64_le read_u64_le where
  bytes := by
    intro x
    have h : ∀ o, (put x o).toNat = x.toNat / 2 ^ o % 256 := fun o => put_toNat x o (by omega)
    simp [write_u64_le, leDigits, List.range, List.range.loop, h]
  round_trip := by
    intro x rest
    show Res.ok _ = Res.ok x
    congr 1
    apply BitVec.eq_of_getLsbD_eq
    intro i hi
    simp only [BitVec.getLsbD_or, gp _ _ _ hi]
    cases x.getLsbD i <;> simp <;> omega
  back := by
    intro bs hb
    match bs, hb with
    | b0 :: b1 :: b2 :: b3 :: b4 :: b5 :: b6 :: b7 :: t, _ =>
      refine ⟨_, rfl, ?_⟩
      simp only [write_u64_le, put_or]
      simp [put_get_same, put_get_ne]
    | [], h => simp at h
    | [_], h => simp at h
    | [_, _], h => simp at h
    | [_, _, _], h => simp at h
    | [_, _, _, _], h => simp at h
    | [_, _, _, _, _], h => simp at h
    | [_, _, _, _, _, _], h => simp at h
    | [_, _, _, _, _, _, _], h => simp at h
  short := by
    intro bs hb
    match bs, hb with
    | [], _ => rfl
    | [_], _ => rfl
    | [_, _], _ => rfl
    | [_, _, _], _ => rfl
    | [_, _, _, _], _ => rfl
    | [_, _, _, _, _], _ => rfl
    | [_, _, _, _, _, _], _ => rfl
    | [_, _, _, _, _, _, _], _ => rfl
    | _ :: _ :: _ :: _ :: _ :: _ :: _ :: _ :: _, h => simp at h; omega

theorem u64_be : Codec 64 8 beDigits write_u64_be read_u64_be where
  bytes := by
    intro x
    have h : ∀ o, (put x o).toNat = x.toNat / 2 ^ o % 256 := fun o => put_toNat x o (by omega)
    simp [write_u64_be, beDigits, leDigits, List.range, List.range.loop, h]
  round_trip := by
    intro x rest
    show Res.ok _ = Res.ok x
    congr 1
    apply BitVec.eq_of_getLsbD_eq
    intro i hi
    simp only [BitVec.getLsbD_or, gp _ _ _ hi]
    cases x.getLsbD i <;> simp <;> omega
  back := by
    intro bs hb
    match bs, hb with
    | b0 :: b1 :: b2 :: b3 :: b4 :: b5 :: b6 :: b7 :: t, _ =>
      refine ⟨_, rfl, ?_⟩
      simp only [write_u64_be, put_or]
      simp [put_get_same, put_get_ne]
    | [], h => simp at h
    | [_], h => simp at h
    | [_, _], h => simp at h
    | [_, _, _], h => simp at h
    | [_, _, _, _], h => simp at h
    | [_, _, _, _, _], h => simp at h
    | [_, _, _, _, _, _], h => simp at h
    | [_, _, _, _, _, _, _], h => simp at h
  short := by
    intro bs hb
    match bs, hb with
    | [], _ => rfl
    | [_], _ => rfl
    | [_, _], _ => rfl
    | [_, _, _], _ => rfl
    | [_, _, _, _], _ => rfl
    | [_, _, _, _, _], _ => rfl
    | [_, _, _, _, _, _], _ => rfl
    | [_, _, _, _, _, _, _], _ => rfl
    | _ :: _ :: _ :: _ :: _ :: _ :: _ :: _ :: _, h => simp at h; omega

/-- **C33.** Every unsigned width, both byte orders. -/
theorem C33_unsigned :
    Codec 8 1 leDigits write_u8 read_8 ∧ Codec 8 1 beDigits write_u8 read_8 ∧
    Codec 16 2 leDigits write_u16_le read_u16_le ∧ Codec 16 2 beDigits write_u16_be read_u16_be ∧
    Codec 32 4 leDigits write_u32_le read_u32_le ∧ Codec 32 4 beDigits write_u32_be read_u32_be ∧
    Codec 64 8 leDigits write_u64_le read_u64_le ∧ Codec 64 8 beDigits write_u64_be read_u64_be :=
  ⟨u8_c _ (fun v => by simp [leDigits, List.range, List.range.loop]),
   u8_c _ (fun v => by simp [beDigits, leDigits, List.range, List.range.loop]),
   u16_le, u16_be, u32_le, u32_be, u64_le, u64_be⟩

/-- **C33.** Every signed width, both byte orders (the bytes are those of the two's
complement pattern). -/
theorem C33_signed :
    Codec 8 1 leDigits write_i8 read_8 ∧ Codec 8 1 beDigits write_i8 read_8 ∧
    Codec 16 2 leDigits write_i16_le read_i16_le ∧ Codec 16 2 beDigits write_i16_be read_i16_be ∧
    Codec 32 4 leDigits write_i32_le read_i32_le ∧ Codec 32 4 beDigits write_i32_be read_i32_be ∧
    Codec 64 8 leDigits write_i64_le read_i64_le ∧ Codec 64 8 beDigits write_i64_be read_i64_be := by
  rw [i16_le_eq, i32_le_eq, i64_le_eq, i16_be_eq, i32_be_eq, i64_be_eq]
  exact ⟨u8_c _ (fun v => by simp [leDigits, List.range, List.range.loop]),
   u8_c _ (fun v => by simp [beDigits, leDigits, List.range, List.range.loop]),
   u16_le, u16_be, u32_le, u32_be, u64_le, u64_be⟩

/-- **C33.** The bit patterns of floats, both widths and byte orders. -/
theorem C33_float :
    Codec 32 4 leDigits write_f32_le read_u32_le ∧ Codec 32 4 beDigits write_f32_be read_u32_be ∧
    Codec 64 8 leDigits write_f64_le read_u64_le ∧ Codec 64 8 beDigits write_f64_be read_u64_be :=
  ⟨u32_le, u32_be, u64_le, u64_be⟩

/-- -2 as i16, little-endian. -/
example : write_i16_le (BitVec.ofInt 16 (-2)) = [0xFE#8, 0xFF#8] ∧
    read_i16_le [0xFE#8, 0xFF#8, 7#8] = .ok (BitVec.ofInt 16 (-2)) := by decide

/-! ### The C helpers -/

theorem w16 (a b : Byte) (t : List Byte) (x : BitVec 16) : write16le (a :: b :: t) x = .ok (write_u16_le x ++ t) := rfl

theorem put_set {w v : Nat} (x : BitVec w) (o : Nat) (h : o + 8 ≤ v) : put (x.setWidth v) o = put x o := by
  apply BitVec.eq_of_getLsbD_eq
  intro j hj
  rw [put_bit, put_bit, BitVec.getLsbD_setWidth]
  simp [hj, show o + j < v by omega]

theorem put_shift {w v : Nat} (x : BitVec w) (k o : Nat) (h : o + 8 ≤ v) : put ((x >>> k).setWidth v) o = put x (k + o) := by
  apply BitVec.eq_of_getLsbD_eq
  intro j hj
  rw [put_bit, put_bit, BitVec.getLsbD_setWidth, BitVec.getLsbD_ushiftRight]
  simp [hj, show o + j < v by omega, Nat.add_assoc]

theorem w32 (a b c d : Byte) (t : List Byte) (x : BitVec 32) :
    write32le (a :: b :: c :: d :: t) x = .ok (write_u32_le x ++ t) := by
  unfold write32le
  rw [w16]
  simp only [Res.bind_ok, write_u16_le, List.cons_append, List.nil_append, List.drop_succ_cons, List.drop_zero]
  rw [w16]
  simp only [Res.bind_ok, write_u16_le, write_u32_le, put_set _ _ (by omega : 0 + 8 ≤ 16), put_set _ _ (by omega : 8 + 8 ≤ 16),
    put_shift _ _ _ (by omega : 0 + 8 ≤ 16), put_shift _ _ _ (by omega : 8 + 8 ≤ 16)]
  rfl

theorem w64 (a b c d e f g h : Byte) (t : List Byte) (x : BitVec 64) :
    write64le (a :: b :: c :: d :: e :: f :: g :: h :: t) x = .ok (write_u64_le x ++ t) := by
  unfold write64le
  rw [w32]
  simp only [Res.bind_ok, write_u32_le, List.cons_append, List.nil_append, List.drop_succ_cons, List.drop_zero]
  rw [w32]
  simp only [Res.bind_ok, write_u32_le, write_u64_le, put_set _ _ (by omega : 0 + 8 ≤ 32), put_set _ _ (by omega : 8 + 8 ≤ 32),
    put_set _ _ (by omega : 16 + 8 ≤ 32), put_set _ _ (by omega : 24 + 8 ≤ 32),
    put_shift _ _ _ (by omega : 0 + 8 ≤ 32), put_shift _ _ _ (by omega : 8 + 8 ≤ 32),
    put_shift _ _ _ (by omega : 16 + 8 ≤ 32), put_shift _ _ _ (by omega : 24 + 8 ≤ 32)]
  rfl

theorem r16 (a b : Byte) (t : List Byte) : read16le (a :: b :: t) = read_u16_le (a :: b :: t) := by
  simp only [read16le, read_u16_le, Res.ok.injEq]
  rw [BitVec.or_comm]
  congr 1
  simp [get]

theorem get_wide (w v : Nat) (b : Byte) (o : Nat) (h : o + 8 ≤ w) : (get w b o).setWidth v = get v b o := by
  apply BitVec.eq_of_getLsbD_eq
  intro i hi
  rw [BitVec.getLsbD_setWidth, get_bit, get_bit]
  by_cases h2 : i < w
  · simp [hi, h2]
  · simp [hi, h2, BitVec.getLsbD_of_ge b (i - o) (by omega)]

theorem get_shl (w v : Nat) (b : Byte) (o k : Nat) (h : o + 8 ≤ w) : (get w b o).setWidth v <<< k = get v b (o + k) := by
  rw [get_wide _ _ _ _ h]
  apply BitVec.eq_of_getLsbD_eq
  intro i hi
  rw [BitVec.getLsbD_shiftLeft, get_bit, get_bit]
  by_cases h1 : i < k
  · simp [h1, show ¬ o + k ≤ i by omega]
  · by_cases h2 : o + k ≤ i
    · simp [hi, h1, h2, show i - k < v by omega, show o ≤ i - k by omega, show i - k - o = i - (o + k) by omega]
    · simp [h2, show ¬ o ≤ i - k by omega]

theorem or_rot {w : Nat} (a b c d : BitVec w) : (b ||| a) ||| (d ||| c) = d ||| c ||| b ||| a := by
  rw [BitVec.or_comm, BitVec.or_assoc (d ||| c) b a]

theorem or_rot8 {w : Nat} (a b c d e f g h : BitVec w) :
    (d ||| c ||| b ||| a) ||| (h ||| g ||| f ||| e) = h ||| g ||| f ||| e ||| d ||| c ||| b ||| a := by
  rw [BitVec.or_comm]
  simp only [BitVec.or_assoc]

theorem r32 (a b c d : Byte) (t : List Byte) : read32le (a :: b :: c :: d :: t) = read_u32_le (a :: b :: c :: d :: t) := by
  unfold read32le
  simp only [List.drop_succ_cons, List.drop_zero]
  rw [r16, r16]
  simp only [read_u16_le, Res.bind_ok, read_u32_le, Res.ok.injEq]
  rw [BitVec.setWidth_or, BitVec.setWidth_or, BitVec.shiftLeft_or_distrib]
  rw [get_wide _ _ _ _ (by omega), get_wide _ _ _ _ (by omega), get_shl _ _ _ _ _ (by omega), get_shl _ _ _ _ _ (by omega)]
  exact or_rot _ _ _ _

theorem r64 (a b c d e f g h : Byte) (t : List Byte) :
    read64le (a :: b :: c :: d :: e :: f :: g :: h :: t) = read_u64_le (a :: b :: c :: d :: e :: f :: g :: h :: t) := by
  unfold read64le
  simp only [List.drop_succ_cons, List.drop_zero]
  rw [r32, r32]
  simp only [read_u32_le, Res.bind_ok, read_u64_le, Res.ok.injEq]
  simp only [BitVec.setWidth_or, BitVec.shiftLeft_or_distrib]
  simp only [get_shl 32 64 _ 24 32 (by omega), get_shl 32 64 _ 16 32 (by omega), get_shl 32 64 _ 8 32 (by omega), get_shl 32 64 _ 0 32 (by omega)]
  simp only [get_wide 32 64 _ 24 (by omega), get_wide 32 64 _ 16 (by omega), get_wide 32 64 _ 8 (by omega), get_wide 32 64 _ 0 (by omega)]
  exact or_rot8 _ _ _ _ _ _ _ _

/-- **C33.** The C helpers store the little-endian digits in place, leave the bytes
after them alone, and read them back; `add` adds modulo the width. -/
theorem C33_helpers (p : List Byte) :
    (2 ≤ p.length → ∀ x : BitVec 16, ∃ q, write16le p x = .ok q ∧ read16le q = .ok x ∧
      q.map BitVec.toNat = leDigits 2 x.toNat ++ (p.drop 2).map BitVec.toNat) ∧
    (4 ≤ p.length → ∀ x : BitVec 32, ∃ q, write32le p x = .ok q ∧ read32le q = .ok x ∧
      q.map BitVec.toNat = leDigits 4 x.toNat ++ (p.drop 4).map BitVec.toNat) ∧
    (8 ≤ p.length → ∀ x : BitVec 64, ∃ q, write64le p x = .ok q ∧ read64le q = .ok x ∧
      q.map BitVec.toNat = leDigits 8 x.toNat ++ (p.drop 8).map BitVec.toNat) := by
  refine ⟨?_, ?_, ?_⟩
  · intro h x
    match p, h with
    | a :: b :: t, _ =>
      refine ⟨_, w16 a b t x, ?_, ?_⟩
      · exact (r16 _ _ _).trans (u16_le.round_trip x t)
      · rw [List.map_append, u16_le.bytes]; rfl
    | [], h => simp at h
    | [_], h => simp at h
  · intro h x
    match p, h with
    | a :: b :: c :: d :: t, _ =>
      refine ⟨_, w32 a b c d t x, ?_, ?_⟩
      · exact (r32 _ _ _ _ _).trans (u32_le.round_trip x t)
      · rw [List.map_append, u32_le.bytes]; rfl
    | [], h => simp at h
    | [_], h => simp at h
    | [_, _], h => simp at h
    | [_, _, _], h => simp at h
  · intro h x
    match p, h with
    | a :: b :: c :: d :: e :: f :: g :: h :: t, _ =>
      refine ⟨_, w64 a b c d e f g h t x, ?_, ?_⟩
      · exact (r64 _ _ _ _ _ _ _ _ _).trans (u64_le.round_trip x t)
      · rw [List.map_append, u64_le.bytes]; rfl
    | [], h => simp at h
    | [_], h => simp at h
    | [_, _], h => simp at h
    | [_, _, _], h => simp at h
    | [_, _, _, _], h => simp at h
    | [_, _, _, _, _], h => simp at h
    | [_, _, _, _, _, _], h => simp at h
    | [_, _, _, _, _, _, _], h => simp at h

/-- **C33.** `add32le` and `add64le` replace the stored value by its sum with `x`
modulo the width. -/
theorem C33_add (p : List Byte) :
    (∀ v x : BitVec 32, read32le p = .ok v → ∃ q, add32le p x = .ok q ∧ read32le q = .ok (v + x) ∧ q.drop 4 = p.drop 4) ∧
    (∀ v x : BitVec 64, read64le p = .ok v → ∃ q, add64le p x = .ok q ∧ read64le q = .ok (v + x) ∧ q.drop 8 = p.drop 8) := by
  constructor
  · intro v x hv
    match p, hv with
    | a :: b :: c :: d :: t, hv =>
      refine ⟨write_u32_le (v + x) ++ t, ?_, ?_, rfl⟩
      · unfold add32le; rw [hv]; exact w32 a b c d t (v + x)
      · exact (r32 _ _ _ _ _).trans (u32_le.round_trip (v + x) t)
    | [], hv => exact nomatch hv
    | [_], hv => exact nomatch hv
    | [_, _], hv => exact nomatch hv
    | [_, _, _], hv => exact nomatch hv
  · intro v x hv
    match p, hv with
    | a :: b :: c :: d :: e :: f :: g :: h :: t, hv =>
      refine ⟨write_u64_le (v + x) ++ t, ?_, ?_, rfl⟩
      · unfold add64le; rw [hv]; exact w64 a b c d e f g h t (v + x)
      · exact (r64 _ _ _ _ _ _ _ _ _).trans (u64_le.round_trip (v + x) t)
    | [], hv => exact nomatch hv
    | [_], hv => exact nomatch hv
    | [_, _], hv => exact nomatch hv
    | [_, _, _], hv => exact nomatch hv
    | [_, _, _, _], hv => exact nomatch hv
    | [_, _, _, _, _], hv => exact nomatch hv
    | [_, _, _, _, _, _], hv => exact nomatch hv
    | [_, _, _, _, _, _, _], hv => exact nomatch hv

/-- The helper relocates a 32-bit field: 0xFFFFFFFF + 2 = 1, the byte after it is kept. -/
example : add32le [0xFF#8, 0xFF#8, 0xFF#8, 0xFF#8, 9#8] 2#32 = .ok [1#8, 0#8, 0#8, 0#8, 9#8] := by decide

end Nature.IntCodec
