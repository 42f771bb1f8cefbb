import Verif.Inflate.Model
import Verif.Inflate.Spec

/-!
# The reader gives the bits of the input
-/

namespace Nature.Inflate

open Spec (bitsOf number Bits nextByte)

/-- The low `n` bits of a number. -/
def natBits (n v : Nat) : List Bool := (List.range n).map fun i => v.testBit i

theorem natBits_length (n v : Nat) : (natBits n v).length = n := by simp [natBits]

theorem natBits_get {n v i : Nat} : (natBits n v)[i]? = if i < n then some (v.testBit i) else none := by
  rw [natBits, List.getElem?_map]
  split
  · rw [List.getElem?_range (by assumption)]; rfl
  · rw [List.getElem?_eq_none (by simp; omega)]; rfl

theorem natBits_join {n k v w : Nat} (hv : v < 2 ^ n) : natBits (n + k) (v ||| w <<< n) = natBits n v ++ natBits k w := by
  apply List.ext_getElem?
  intro i
  rw [natBits_get]
  by_cases h : i < n
  · rw [List.getElem?_append_left (by rw [natBits_length]; exact h), natBits_get, if_pos (by omega), if_pos h, Nat.testBit_or,
      Nat.testBit_shiftLeft]
    simp [show ¬ i ≥ n by omega]
  · rw [List.getElem?_append_right (by rw [natBits_length]; omega), natBits_get, natBits_length]
    by_cases h2 : i < n + k
    · rw [if_pos h2, if_pos (by omega), Nat.testBit_or, Nat.testBit_shiftLeft,
        Nat.testBit_lt_two_pow (Nat.lt_of_lt_of_le hv (Nat.pow_le_pow_right (by omega) (by omega)))]
      simp [show i ≥ n by omega]
    · rw [if_neg h2, if_neg (by omega)]

theorem natBits_split {n k v : Nat} (h : k ≤ n) : natBits n v = natBits k (v &&& (2 ^ k - 1)) ++ natBits (n - k) (v >>> k) := by
  apply List.ext_getElem?
  intro i
  rw [natBits_get]
  by_cases hi : i < k
  · rw [List.getElem?_append_left (by rw [natBits_length]; exact hi), natBits_get, if_pos (by omega), if_pos hi, Nat.testBit_and,
      Nat.testBit_two_pow_sub_one]
    simp [hi]
  · rw [List.getElem?_append_right (by rw [natBits_length]; omega), natBits_get, natBits_length]
    by_cases h2 : i < n
    · rw [if_pos h2, if_pos (by omega), Nat.testBit_shiftRight, show k + (i - k) = i by omega]
    · rw [if_neg h2, if_neg (by omega)]

theorem natBits_succ (n v : Nat) : natBits (n + 1) v = v.testBit 0 :: natBits n (v / 2) := by
  apply List.ext_getElem?
  intro i
  rw [natBits_get]
  cases i with
  | zero => simp
  | succ i => rw [List.getElem?_cons_succ, natBits_get, Nat.testBit_succ]; simp

theorem number_natBits (n : Nat) : ∀ v, number (natBits n v) = v % 2 ^ n := by
  induction n with
  | zero => intro v; simp [natBits, number, Nat.mod_one]
  | succ n ih =>
    intro v
    rw [natBits_succ, number, ih, Nat.pow_succ, Nat.mul_comm (2 ^ n) 2, Nat.mod_mul, Nat.testBit_zero]
    rcases Nat.mod_two_eq_zero_or_one v with h | h <;> simp [h]

theorem number_lt (bs : List Bool) : number bs < 2 ^ bs.length := by
  induction bs with
  | nil => simp [number]
  | cons b bs ih => rw [number, List.length_cons, Nat.pow_succ]; cases b <;> simp <;> omega

theorem number_append (a b : List Bool) : number (a ++ b) = number a + 2 ^ a.length * number b := by
  induction a with
  | nil => simp [number]
  | cons x a ih => rw [List.cons_append, number, number, ih, List.length_cons, Nat.pow_succ, Nat.mul_add, Nat.mul_comm (2 ^ a.length) 2, Nat.mul_assoc]; omega

theorem bitsOf_nil : bitsOf [] = [] := rfl

theorem bitsOf_cons (b : Spec.Byte) (bs : List Spec.Byte) : bitsOf (b :: bs) = natBits 8 b.toNat ++ bitsOf bs := by
  simp only [bitsOf, List.flatMap_cons, natBits]
  rfl

theorem bitsOf_append (a b : List Spec.Byte) : bitsOf (a ++ b) = bitsOf a ++ bitsOf b := by
  rw [bitsOf, List.flatMap_append]; rfl

theorem bitsOf_length (bs : List Spec.Byte) : (bitsOf bs).length = 8 * bs.length := by
  induction bs with
  | nil => rfl
  | cons b bs ih => rw [bitsOf_cons, List.length_append, natBits_length, ih, List.length_cons]; omega

theorem natBits_inj {n a b : Nat} (ha : a < 2 ^ n) (hb : b < 2 ^ n) (h : natBits n a = natBits n b) : a = b := by
  have := congrArg number h
  rw [number_natBits, number_natBits, Nat.mod_eq_of_lt ha, Nat.mod_eq_of_lt hb] at this
  exact this

theorem bitsOf_inj : ∀ (a b : List Spec.Byte), bitsOf a = bitsOf b → a = b := by
  intro a
  induction a with
  | nil =>
    intro b h
    have := congrArg List.length h
    rw [bitsOf_length, bitsOf_length] at this
    cases b with
    | nil => rfl
    | cons => simp at this
  | cons x a ih =>
    intro b h
    cases b with
    | nil =>
      have := congrArg List.length h
      rw [bitsOf_length, bitsOf_length] at this
      simp at this
    | cons y b =>
      rw [bitsOf_cons, bitsOf_cons] at h
      obtain ⟨h1, h2⟩ := List.append_inj h (by rw [natBits_length, natBits_length])
      rw [ih b h2, BitVec.eq_of_toNat_eq (natBits_inj x.isLt y.isLt h1)]

theorem Bits_iff {n : Nat} {b b' : List Bool} {v : Nat} : Bits n b v b' ↔ n ≤ b.length ∧ v = number (b.take n) ∧ b' = b.drop n := by
  constructor
  · rintro ⟨bs, rfl, rfl, rfl⟩
    simp
  · rintro ⟨h, rfl, rfl⟩
    exact ⟨b.take n, by simp; omega, (List.take_append_drop n b).symm, rfl⟩

/-! ### Reader -/

/-- What the reader will give. -/
def view (r : Reader) : List Bool := natBits r.bitCount r.bits ++ bitsOf (r.data.drop r.offset)

structure Inv (r : Reader) : Prop where
  bits : r.bits < 2 ^ r.bitCount
  few : r.bitCount < 8
  offset : r.offset ≤ r.data.length

theorem view_length (r : Reader) : (view r).length = r.bitCount + 8 * (r.data.length - r.offset) := by
  rw [view, List.length_append, natBits_length, bitsOf_length, List.length_drop]

theorem view_lt {r : Reader} (h : Inv r) : (view r).length < 8 * r.data.length + 8 := by
  rw [view_length]; have := h.few; omega

/-- A result is exactly what the relation says: it exists if and only if something is related, and nothing else is. -/
def Exact {α : Type} (x : Res (α × Reader)) (P : α → List Bool → Prop) : Prop :=
  match x with
  | .ok (a, r) => Inv r ∧ ∀ a' b', P a' b' ↔ a' = a ∧ b' = view r
  | .err _ => ∀ a' b', ¬ P a' b'
  | .fault => False

theorem Exact.bind {α β : Type} {x : Res (α × Reader)} {P : α → List Bool → Prop} {f : α × Reader → Res (β × Reader)}
    {Q : β → List Bool → Prop} {R : α → List Bool → β → List Bool → Prop} (hx : Exact x P)
    (hf : ∀ a r, x = .ok (a, r) → Inv r → P a (view r) → Exact (f (a, r)) (R a (view r)))
    (hQ : ∀ c b, Q c b ↔ ∃ a b', P a b' ∧ R a b' c b) : Exact (x.bind f) Q := by
  cases x with
  | fault => exact hx
  | err e =>
    intro c b hq
    obtain ⟨a, b', h, _⟩ := (hQ c b).1 hq
    exact hx a b' h
  | ok p =>
    obtain ⟨a, r⟩ := p
    obtain ⟨hi, hp⟩ := hx
    have h := hf a r rfl hi ((hp _ _).2 ⟨rfl, rfl⟩)
    have hQ' : ∀ c b, Q c b ↔ R a (view r) c b := by
      intro c b
      rw [hQ]
      constructor
      · rintro ⟨a', b', h1, h2⟩
        obtain ⟨rfl, rfl⟩ := (hp _ _).1 h1
        exact h2
      · intro h
        exact ⟨a, _, (hp _ _).2 ⟨rfl, rfl⟩, h⟩
    show Exact (f (a, r)) Q
    revert h
    generalize f (a, r) = y
    intro h
    cases y with
    | fault => exact h
    | err e => intro c b hq; exact h c b ((hQ' c b).1 hq)
    | ok q => exact ⟨h.1, fun c b => (hQ' c b).trans (h.2 c b)⟩

theorem Exact.congr {α : Type} {x : Res (α × Reader)} {P Q : α → List Bool → Prop} (h : Exact x P) (hq : ∀ a b, Q a b ↔ P a b) : Exact x Q := by
  cases x with
  | fault => exact h
  | err e => intro a b hp; exact h a b ((hq a b).1 hp)
  | ok p => exact ⟨h.1, fun a b => (hq a b).trans (h.2 a b)⟩

theorem exact_ok {α : Type} {a : α} {r : Reader} (h : Inv r) : Exact (.ok (a, r)) fun a' b' => a' = a ∧ b' = view r :=
  ⟨h, fun _ _ => Iff.rfl⟩

theorem exact_of {α : Type} {x : Res (α × Reader)} {P : α → List Bool → Prop} (h1 : ∀ a r, x = .ok (a, r) → Inv r ∧ P a (view r))
    (h2 : ∀ a b, P a b → ∃ r, x = .ok (a, r) ∧ view r = b) (h3 : x ≠ .fault) : Exact x P := by
  cases x with
  | fault => exact absurd rfl h3
  | err e => intro a b hp; obtain ⟨r, h, _⟩ := h2 a b hp; cases h
  | ok p =>
    obtain ⟨a, r⟩ := p
    obtain ⟨hi, hp⟩ := h1 a r rfl
    refine ⟨hi, fun a' b' => ⟨fun h => ?_, ?_⟩⟩
    · obtain ⟨r', e, hv⟩ := h2 a' b' h
      cases e
      exact ⟨rfl, hv.symm⟩
    · rintro ⟨rfl, rfl⟩; exact hp

/-- What `refill` does. -/
theorem refill_spec (count : Nat) (hc : count ≤ 16) : ∀ (k : Nat) (r : Reader), count - r.bitCount = k → r.bits < 2 ^ r.bitCount → r.offset ≤ r.data.length →
    match refill r count with
    | .ok r' => view r' = view r ∧ r'.bits < 2 ^ r'.bitCount ∧ count ≤ r'.bitCount ∧ (r'.bitCount < count + 8 ∨ r' = r) ∧ r'.offset ≤ r'.data.length
    | .err _ => (view r).length < count
    | .fault => False := by
  intro k
  induction k using Nat.strongRecOn with
  | ind k ih =>
    intro r hk hb ho
    rw [refill]
    by_cases h : r.bitCount < count
    · rw [if_pos h]
      by_cases h2 : r.offset ≥ r.data.length
      · rw [if_pos h2]
        show (view r).length < count
        rw [view_length]; omega
      · rw [if_neg h2]
        have hg := List.getElem?_eq_getElem (l := r.data) (i := r.offset) (by omega)
        rw [hg]
        simp only
        generalize hbyte : r.data[r.offset] = byte at *
        have hlt : byte.toNat < 2 ^ 8 := byte.isLt
        have hor : r.bits ||| byte.toNat <<< r.bitCount < 2 ^ (r.bitCount + 8) :=
          Nat.or_lt_two_pow (Nat.lt_of_lt_of_le hb (Nat.pow_le_pow_right (by omega) (by omega)))
            (by rw [Nat.shiftLeft_eq, Nat.pow_add, Nat.mul_comm]; exact Nat.mul_lt_mul_of_pos_left hlt (Nat.two_pow_pos _))
        have hm : (r.bits ||| byte.toNat <<< r.bitCount) % 2 ^ 64 = r.bits ||| byte.toNat <<< r.bitCount :=
          Nat.mod_eq_of_lt (Nat.lt_of_lt_of_le hor (Nat.pow_le_pow_right (by omega) (by omega)))
        rw [hm]
        have hv : view { r with bits := r.bits ||| byte.toNat <<< r.bitCount, offset := r.offset + 1, bitCount := r.bitCount + 8 } = view r := by
          simp only [view]
          rw [natBits_join hb, List.append_assoc, ← bitsOf_cons, ← hbyte, List.getElem_cons_drop]
        have := ih (count - (r.bitCount + 8)) (by omega)
          { r with bits := r.bits ||| byte.toNat <<< r.bitCount, offset := r.offset + 1, bitCount := r.bitCount + 8 } rfl hor (by simp only; omega)
        revert this
        generalize refill _ count = y
        intro this
        cases y with
        | fault => exact this
        | err e => simp only at this ⊢; rw [hv] at this; exact this
        | ok r' =>
          simp only at this ⊢
          rw [hv] at this
          refine ⟨this.1, this.2.1, this.2.2.1, .inl ?_, this.2.2.2.2⟩
          rcases this.2.2.2.1 with h' | h'
          · exact h'
          · rw [h']; simp only; omega
    · rw [if_neg h]
      exact ⟨rfl, hb, by omega, .inr rfl, ho⟩

theorem readBits_exact {r : Reader} (hi : Inv r) {count : Nat} (hc : count ≤ 16) : Exact (readBits r count) (Bits count (view r)) := by
  have h := refill_spec count hc _ r rfl hi.bits hi.offset
  rw [readBits, if_neg (by omega)]
  revert h
  generalize refill r count = y
  intro h
  cases y with
  | fault => exact h
  | err e =>
    intro a b hb
    rw [Bits_iff] at hb
    simp only at h
    omega
  | ok r' =>
    obtain ⟨h1, h2, h3, h4, h5⟩ := h
    show Exact (if count = 0 then .ok (0, r') else _) _
    have few : r'.bitCount - count < 8 := by
      rcases h4 with h4 | h4
      · omega
      · rw [h4]; have := hi.few; omega
    by_cases h0 : count = 0
    · rw [if_pos h0]
      subst h0
      refine ⟨⟨h2, by omega, h5⟩, fun a' b' => ?_⟩
      rw [Bits_iff, ← h1]
      simp [number]
    · rw [if_neg h0]
      have hs : view r' = natBits count (r'.bits &&& (2 ^ count - 1)) ++
          view { r' with bits := r'.bits >>> count, bitCount := r'.bitCount - count } := by
        rw [view, natBits_split h3, List.append_assoc]; rfl
      refine ⟨⟨?_, few, h5⟩, fun a' b' => ?_⟩
      · simp only [Nat.shiftRight_eq_div_pow]
        rw [Nat.div_lt_iff_lt_mul (Nat.two_pow_pos _), ← Nat.pow_add, Nat.sub_add_cancel h3]
        exact h2
      · rw [Bits_iff, ← h1, hs, List.take_left' (natBits_length _ _), List.drop_left' (natBits_length _ _), number_natBits,
          Nat.mod_eq_of_lt (Nat.and_lt_two_pow _ (by have := Nat.two_pow_pos count; omega))]
        simp [natBits_length]

/-! ### Bytes -/

/-- The reader is at a byte. -/
structure AtByte (r : Reader) : Prop where
  bits : r.bits = 0
  bitCount : r.bitCount = 0
  offset : r.offset ≤ r.data.length

theorem AtByte.inv {r : Reader} (h : AtByte r) : Inv r := ⟨by rw [h.bits]; exact Nat.two_pow_pos _, by rw [h.bitCount]; omega, h.offset⟩

theorem AtByte.view {r : Reader} (h : AtByte r) : view r = bitsOf (r.data.drop r.offset) := by
  rw [Inflate.view, h.bitCount]; rfl

theorem align_spec {r : Reader} (h : Inv r) : AtByte (align r) ∧ view (align r) = nextByte (view r) := by
  have h7 : r.bitCount &&& 7 = r.bitCount := by
    have := Nat.and_two_pow_sub_one_eq_mod r.bitCount 3
    rw [show (2 : Nat) ^ 3 - 1 = 7 by rfl, show (2 : Nat) ^ 3 = 8 by rfl, Nat.mod_eq_of_lt h.few] at this
    exact this
  have ha : AtByte (align r) := by
    refine ⟨?_, ?_, h.offset⟩
    · simp only [align, h7, Nat.shiftRight_eq_div_pow]; exact Nat.div_eq_of_lt h.bits
    · simp only [align, h7, Nat.sub_self]
  refine ⟨ha, ?_⟩
  rw [ha.view, nextByte, view_length]
  have hf := h.few
  rw [show (r.bitCount + 8 * (r.data.length - r.offset)) % 8 = r.bitCount by omega, view, List.drop_left' (natBits_length _ _)]
  rfl

theorem readByte_nil {r : Reader} (h : AtByte r) (hd : r.data.drop r.offset = []) : readByte r = .err .truncated := by
  have := congrArg List.length hd
  simp only [List.length_drop, List.length_nil] at this
  rw [readByte, if_neg (by rw [h.bitCount]; omega), if_pos (by omega)]

theorem readByte_cons {r : Reader} (h : AtByte r) {x : Byte} {xs : List Byte} (hd : r.data.drop r.offset = x :: xs) :
    readByte r = .ok (x, { r with offset := r.offset + 1 }) ∧ AtByte { r with offset := r.offset + 1 } ∧ r.data.drop (r.offset + 1) = xs := by
  have hl := congrArg List.length hd
  simp only [List.length_drop, List.length_cons] at hl
  have hg : r.data[r.offset]? = some x := by
    have := congrArg (fun l => l[0]?) hd
    simp only [List.getElem?_drop, Nat.add_zero, List.getElem?_cons_zero] at this
    exact this
  refine ⟨?_, ⟨h.bits, h.bitCount, by simp only; omega⟩, ?_⟩
  · rw [readByte, if_neg (by rw [h.bitCount]; omega), if_neg (by omega), hg]
  · rw [← List.drop_drop, hd]; rfl

theorem bytes_number (x y : Byte) : number (natBits 8 x.toNat ++ natBits 8 y.toNat) = x.toNat + 256 * y.toNat := by
  rw [number_append, number_natBits, number_natBits, natBits_length, Nat.mod_eq_of_lt x.isLt, Nat.mod_eq_of_lt y.isLt]

theorem or_shift (x y k : Nat) (h : x < 2 ^ k) : x ||| y <<< k = x + 2 ^ k * y := by
  rw [Nat.or_comm, ← Nat.shiftLeft_add_eq_or_of_lt h, Nat.shiftLeft_eq]
  rw [Nat.mul_comm]; omega

end Nature.Inflate
