import Verif.Arm64.Model
/-! Words by their fields. -/
namespace Nature.Arm64

theorem or_add {a b i : Nat} (ha : 2 ^ i ∣ a) (hb : b < 2 ^ i) : a ||| b = a + b := by
  obtain ⟨c, rfl⟩ := ha
  rw [Nat.mul_comm, ← Nat.shiftLeft_eq, Nat.shiftLeft_add_eq_or_of_lt hb]

def pack (t rm x rn rd : Nat) : Nat := t <<< 21 ||| rm <<< 16 ||| x <<< 10 ||| rn <<< 5 ||| rd

theorem pack_eq {t rm x rn rd : Nat} (hm : rm < 32) (hx : x < 64) (hn : rn < 32) (hd : rd < 32) :
    pack t rm x rn rd = t * 2 ^ 21 + rm * 2 ^ 16 + x * 2 ^ 10 + rn * 2 ^ 5 + rd := by
  unfold pack
  simp only [Nat.shiftLeft_eq]
  rw [or_add (a := t * 2 ^ 21) (i := 21) (by omega) (by omega), or_add (b := x * 2 ^ 10) (i := 16) (by omega) (by omega),
    or_add (b := rn * 2 ^ 5) (i := 10) (by omega) (by omega), or_add (i := 5) (by omega) (by omega)]

theorem decode_pack {t rm x rn rd : Nat} (hm : rm < 32) (hx : x < 64) (hn : rn < 32) (hd : rd < 32) :
    decode (pack t rm x rn rd) = decodeF t rm x rn rd := by
  rw [pack_eq hm hx hn hd]
  unfold decode
  have e1 : (t * 2 ^ 21 + rm * 2 ^ 16 + x * 2 ^ 10 + rn * 2 ^ 5 + rd) / 2 ^ 21 = t := by omega
  have e2 : (t * 2 ^ 21 + rm * 2 ^ 16 + x * 2 ^ 10 + rn * 2 ^ 5 + rd) / 2 ^ 16 % 32 = rm := by omega
  have e3 : (t * 2 ^ 21 + rm * 2 ^ 16 + x * 2 ^ 10 + rn * 2 ^ 5 + rd) / 2 ^ 10 % 64 = x := by omega
  have e4 : (t * 2 ^ 21 + rm * 2 ^ 16 + x * 2 ^ 10 + rn * 2 ^ 5 + rd) / 2 ^ 5 % 32 = rn := by omega
  have e5 : (t * 2 ^ 21 + rm * 2 ^ 16 + x * 2 ^ 10 + rn * 2 ^ 5 + rd) % 32 = rd := by omega
  rw [e1, e2, e3, e4, e5]

/-- `w` is the word with these fields. -/
structure Word (w t rm x rn rd : Nat) : Prop where
  eq : w = pack t rm x rn rd
  t0 : t ≠ 0
  t1 : t < 2048
  m1 : rm < 32
  x1 : x < 64
  n1 : rn < 32
  d1 : rd < 32

namespace Word
variable {w t rm x rn rd : Nat}

theorem sum (h : Word w t rm x rn rd) : w = t * 2 ^ 21 + rm * 2 ^ 16 + x * 2 ^ 10 + rn * 2 ^ 5 + rd := by
  rw [h.eq, pack_eq h.m1 h.x1 h.n1 h.d1]

theorem dec (h : Word w t rm x rn rd) : decode w = decodeF t rm x rn rd := by
  rw [h.eq, decode_pack h.m1 h.x1 h.n1 h.d1]

theorem lt (h : Word w t rm x rn rd) : w < 2 ^ 32 := by
  have := h.sum
  have := h.t1
  have := h.m1
  have := h.x1
  have := h.n1
  have := h.d1
  omega

theorem ne (h : Word w t rm x rn rd) : w ≠ 0 := by
  have := h.sum
  have := h.t0
  omega

end Word

/-- From a sum to fields. -/
theorem word_of_sum {w t rm x rn rd : Nat} (e : w = t * 2 ^ 21 + rm * 2 ^ 16 + x * 2 ^ 10 + rn * 2 ^ 5 + rd) (t0 : t ≠ 0) (t1 : t < 2048)
    (m1 : rm < 32) (x1 : x < 64) (n1 : rn < 32) (d1 : rd < 32) : Word w t rm x rn rd :=
  ⟨by rw [e, pack_eq m1 x1 n1 d1], t0, t1, m1, x1, n1, d1⟩

/-! The shapes of the macros: `c` is what remains of the constant and the width. -/

theorem word4 {c t rm x rn rd : Nat} (hc : c = t <<< 21) (t0 : t ≠ 0) (t1 : t < 2048) (m1 : rm < 32) (x1 : x < 64) (n1 : rn < 32)
    (d1 : rd < 32) : Word (c ||| rm <<< 16 ||| x <<< 10 ||| rn <<< 5 ||| rd) t rm x rn rd :=
  ⟨by rw [hc]; rfl, t0, t1, m1, x1, n1, d1⟩

theorem or5 (a b c d e : Nat) : (a ||| b) ||| c ||| d ||| e = a ||| c ||| b ||| d ||| e := by ac_rfl
theorem or6 (a b c d e f : Nat) : (a ||| b) ||| c ||| d ||| e ||| f = a ||| c ||| (b ||| d) ||| e ||| f := by ac_rfl
theorem or4 (a b c d : Nat) : (a ||| b) ||| c ||| d = a ||| c ||| b ||| d := by ac_rfl

theorem word3 {c t rm x rn rd : Nat} (hc : c = t <<< 21 ||| x <<< 10) (t0 : t ≠ 0) (t1 : t < 2048) (x1 : x < 64) (m1 : rm < 32)
    (n1 : rn < 32) (d1 : rd < 32) : Word (c ||| rm <<< 16 ||| rn <<< 5 ||| rd) t rm x rn rd :=
  ⟨by rw [hc]; exact or5 _ _ _ _ _, t0, t1, m1, x1, n1, d1⟩

theorem word2 {c t rm x rn rd : Nat} (hc : c = t <<< 21 ||| rm <<< 16 ||| x <<< 10) (t0 : t ≠ 0) (t1 : t < 2048) (m1 : rm < 32)
    (x1 : x < 64) (n1 : rn < 32) (d1 : rd < 32) : Word (c ||| rn <<< 5 ||| rd) t rm x rn rd :=
  ⟨by rw [hc]; rfl, t0, t1, m1, x1, n1, d1⟩

/-- With bit 15 set and a register below it. -/
theorem word4s {c t rm x rn rd : Nat} (hc : c = t <<< 21 ||| 32 <<< 10) (t0 : t ≠ 0) (t1 : t < 2048) (m1 : rm < 32) (x1 : x < 32)
    (n1 : rn < 32) (d1 : rd < 32) : Word (c ||| rm <<< 16 ||| x <<< 10 ||| rn <<< 5 ||| rd) t rm (32 + x) rn rd := by
  refine ⟨?_, t0, t1, m1, by omega, n1, d1⟩
  have e : 32 + x = 32 ||| x := (or_add (a := 32) (i := 5) (by decide) x1).symm
  rw [hc, e]
  unfold pack
  rw [Nat.shiftLeft_or_distrib]
  exact or6 _ _ _ _ _ _

/-- A 12-bit number from bit 10 on. -/
theorem word12 {c t v rn rd : Nat} (hc : c = t <<< 21) (t0 : t ≠ 0) (t1 : t < 2048) (t2 : t % 2 = 0) (v1 : v < 4096) (n1 : rn < 32)
    (d1 : rd < 32) : Word (c ||| v <<< 10 ||| rn <<< 5 ||| rd) (t + v / 2048) (v / 64 % 32) (v % 64) rn rd := by
  refine word_of_sum ?_ (by omega) (by omega) (by omega) (by omega) n1 d1
  rw [hc]
  simp only [Nat.shiftLeft_eq]
  rw [or_add (a := t * 2 ^ 21) (i := 22) (by omega) (by omega), or_add (b := rn * 2 ^ 5) (i := 10) (by omega) (by omega),
    or_add (i := 5) (by omega) (by omega)]
  omega

/-- A 16-bit number from bit 5 on. -/
theorem word16 {c t v rd : Nat} (hc : c = t <<< 21) (t0 : t ≠ 0) (t1 : t < 2048) (v1 : v < 65536)
    (d1 : rd < 32) : Word (c ||| v <<< 5 ||| rd) t (v / 2048) (v / 32 % 64) (v % 32) rd := by
  refine word_of_sum ?_ (by omega) (by omega) (by omega) (by omega) (by omega) d1
  rw [hc]
  simp only [Nat.shiftLeft_eq]
  rw [or_add (a := t * 2 ^ 21) (i := 21) (by omega) (by omega), or_add (i := 5) (by omega) (by omega)]
  omega

/-- A 19-bit number from bit 5 on. -/
theorem word19 {c t v rd : Nat} (hc : c = t <<< 21) (t0 : t ≠ 0) (t1 : t < 2048) (t2 : t % 8 = 0) (v1 : v < 2 ^ 19)
    (d1 : rd < 32) : Word (c ||| v <<< 5 ||| rd) (t + v / 65536) (v / 2048 % 32) (v / 32 % 64) (v % 32) rd := by
  refine word_of_sum ?_ (by omega) (by omega) (by omega) (by omega) (by omega) d1
  rw [hc]
  simp only [Nat.shiftLeft_eq]
  rw [or_add (a := t * 2 ^ 21) (i := 24) (by omega) (by omega), or_add (i := 5) (by omega) (by omega)]
  omega

/-- A 26-bit number. -/
theorem word26 {c t v : Nat} (hc : c = t <<< 21) (t0 : t ≠ 0) (t1 : t < 2048) (t2 : t % 32 = 0) (v1 : v < 2 ^ 26) :
    Word (c ||| v) (t + v / 2 ^ 21) (v / 2 ^ 16 % 32) (v / 2 ^ 10 % 64) (v / 32 % 32) (v % 32) := by
  refine word_of_sum ?_ (by omega) (by omega) (by omega) (by omega) (by omega) (by omega)
  rw [hc]
  simp only [Nat.shiftLeft_eq]
  rw [or_add (a := t * 2 ^ 21) (i := 26) (by omega) (by omega)]
  omega

/-- A 9-bit number from bit 12 on and two bits below it. -/
theorem word9 {c t v p rn rd : Nat} (hc : c = t <<< 21) (t0 : t ≠ 0) (t1 : t < 2048) (v1 : v < 512) (p1 : p < 4) (n1 : rn < 32)
    (d1 : rd < 32) : Word (c ||| v <<< 12 ||| p <<< 10 ||| rn <<< 5 ||| rd) t (v / 16) (v % 16 * 4 + p) rn rd := by
  refine word_of_sum ?_ (by omega) (by omega) (by omega) (by omega) n1 d1
  rw [hc]
  simp only [Nat.shiftLeft_eq]
  rw [or_add (a := t * 2 ^ 21) (i := 21) (by omega) (by omega), or_add (b := p * 2 ^ 10) (i := 12) (by omega) (by omega),
    or_add (b := rn * 2 ^ 5) (i := 10) (by omega) (by omega), or_add (i := 5) (by omega) (by omega)]
  omega

theorem word9' {c t v rn rd : Nat} (hc : c = t <<< 21) (t0 : t ≠ 0) (t1 : t < 2048) (v1 : v < 512) (n1 : rn < 32)
    (d1 : rd < 32) : Word (c ||| v <<< 12 ||| rn <<< 5 ||| rd) t (v / 16) (v % 16 * 4) rn rd := by
  have h := word9 hc t0 t1 v1 (by decide : 0 < 4) n1 d1
  simpa using h

/-- A 7-bit number from bit 15 on and a register below it. -/
theorem word7 {c t v u rn rd : Nat} (hc : c = t <<< 21) (t0 : t ≠ 0) (t1 : t < 2048) (t2 : t % 2 = 0) (v1 : v < 128) (u1 : u < 32)
    (n1 : rn < 32) (d1 : rd < 32) :
    Word (c ||| v <<< 15 ||| u <<< 10 ||| rn <<< 5 ||| rd) (t + v / 64) (v / 2 % 32) (v % 2 * 32 + u) rn rd := by
  refine word_of_sum ?_ (by omega) (by omega) (by omega) (by omega) n1 d1
  rw [hc]
  simp only [Nat.shiftLeft_eq]
  rw [or_add (a := t * 2 ^ 21) (i := 22) (by omega) (by omega), or_add (b := u * 2 ^ 10) (i := 15) (by omega) (by omega),
    or_add (b := rn * 2 ^ 5) (i := 10) (by omega) (by omega), or_add (i := 5) (by omega) (by omega)]
  omega

/-- Two 6-bit numbers from bits 16 and 10 on. -/
theorem word66 {c t r s rn rd : Nat} (hc : c = t <<< 21) (t0 : t ≠ 0) (t1 : t < 2048) (t2 : t % 2 = 0) (r1 : r < 64) (s1 : s < 64)
    (n1 : rn < 32) (d1 : rd < 32) :
    Word (c ||| r <<< 16 ||| s <<< 10 ||| rn <<< 5 ||| rd) (t + r / 32) (r % 32) s rn rd := by
  refine word_of_sum ?_ (by omega) (by omega) (by omega) (by omega) n1 d1
  rw [hc]
  simp only [Nat.shiftLeft_eq]
  rw [or_add (a := t * 2 ^ 21) (i := 22) (by omega) (by omega), or_add (b := s * 2 ^ 10) (i := 16) (by omega) (by omega),
    or_add (b := rn * 2 ^ 5) (i := 10) (by omega) (by omega), or_add (i := 5) (by omega) (by omega)]
  omega

/-- An 8-bit number from bit 13 on. -/
theorem word8 {c t v rd : Nat} (hc : c = t <<< 21 ||| 4 <<< 10) (t0 : t ≠ 0) (t1 : t < 2048) (v1 : v < 256)
    (d1 : rd < 32) : Word (c ||| v <<< 13 ||| rd) t (v / 8) (v % 8 * 8 + 4) 0 rd := by
  refine word_of_sum ?_ (by omega) (by omega) (by omega) (by omega) (by omega) d1
  have e : c ||| v <<< 13 ||| rd = t <<< 21 ||| v <<< 13 ||| 4 <<< 10 ||| rd := by
    rw [hc]
    exact or4 _ _ _ _
  rw [e]
  simp only [Nat.shiftLeft_eq]
  rw [or_add (a := t * 2 ^ 21) (i := 21) (by omega) (by omega), or_add (b := 4 * 2 ^ 10) (i := 13) (by omega) (by omega),
    or_add (i := 5) (by omega) (by omega)]
  omega

/-! ### Registers -/

theorem num_lt (r : R) : r.num < 32 := by
  cases r with
  | x n => exact Nat.lt_trans n.isLt (by decide)
  | zr => decide
  | sp => decide

theorem num_ne (n : Fin 31) : (R.x n).num ≠ 31 := Nat.ne_of_lt n.isLt

theorem xz_num (s : St) {r : R} (h : r ≠ .sp) : s.xz r.num = r.get s := by
  cases r with
  | x n => exact if_neg (num_ne n)
  | zr => rfl
  | sp => exact absurd rfl h

theorem xs_num (s : St) {r : R} (h : r ≠ .zr) : s.xs r.num = r.get s := by
  cases r with
  | x n => exact if_neg (num_ne n)
  | zr => exact absurd rfl h
  | sp => rfl

theorem setz_num (s : St) {r : R} (v : BitVec 64) (h : r ≠ .sp) : s.setz r.num v = r.set s v := by
  cases r with
  | x n => exact if_neg (num_ne n)
  | zr => rfl
  | sp => exact absurd rfl h

theorem sets_num (s : St) {r : R} (v : BitVec 64) (h : r ≠ .zr) : s.sets r.num v = r.set s v := by
  cases r with
  | x n => exact if_neg (num_ne n)
  | zr => exact absurd rfl h
  | sp => rfl

theorem zr_num (s : St) (q : Bool) {r : R} (h : r ≠ .sp) : s.zr q r.num = r.val s q := by
  unfold St.zr R.val
  rw [xz_num s h]

theorem sr_num (s : St) (q : Bool) {r : R} (h : r ≠ .zr) : s.sr q r.num = r.val s q := by
  unfold St.sr R.val
  rw [xs_num s h]

theorem putz_num {w : Nat} (s : St) {r : R} (v : BitVec w) (h : r ≠ .sp) : s.putz r.num v = r.put s v := setz_num s _ h

theorem puts_num {w : Nat} (s : St) {r : R} (v : BitVec w) (h : r ≠ .zr) : s.puts r.num v = r.put s v := sets_num s _ h

theorem zr_31 (s : St) (q : Bool) : s.zr q 31 = 0 := by
  unfold St.zr St.xz
  simp

/-! ### Numbers -/

theorem low_lt (n : Nat) (v : Int) : low n v < 2 ^ n := by
  unfold low
  have h0 : (0 : Int) < 2 ^ n := Int.pow_pos (by omega)
  have h1 := Int.emod_lt_of_pos v h0
  have h2 := Int.emod_nonneg v (Int.ne_of_gt h0)
  have h3 : (((v % 2 ^ n).toNat : Nat) : Int) < ((2 ^ n : Nat) : Int) := by
    rw [Int.toNat_of_nonneg h2]
    exact_mod_cast h1
  exact_mod_cast h3

theorem low_nat {n : Nat} {v : Int} (h0 : 0 ≤ v) (h1 : v < 2 ^ n) : low n v = v.toNat := by
  unfold low
  rw [Int.emod_eq_of_lt h0 h1]

theorem sh_nat {v : Int} {k n : Nat} (h0 : 0 ≤ v) (h1 : v < 2 ^ n) (h2 : n + k ≤ 32) : sh v k = v.toNat <<< k := by
  obtain ⟨m, rfl⟩ := Int.eq_ofNat_of_zero_le h0
  unfold sh
  have hm : m < 2 ^ n := by exact_mod_cast h1
  have : m * 2 ^ k < 2 ^ 32 := by
    have h3 : m * 2 ^ k < 2 ^ n * 2 ^ k := Nat.mul_lt_mul_of_pos_right hm (Nat.pow_pos (by decide))
    rw [← Nat.pow_add] at h3
    exact Nat.lt_of_lt_of_le h3 (Nat.pow_le_pow_right (by decide) h2)
  have e : ((m : Int) * 2 ^ k % 2 ^ 32) = ((m * 2 ^ k % 2 ^ 32 : Nat) : Int) := by norm_cast
  rw [e, Nat.mod_eq_of_lt this, Nat.shiftLeft_eq]
  rfl

/-- Numbers of either sign in `n` bits. -/
theorem sgn_low {n : Nat} {v : Int} (hn : 1 ≤ n) (h1 : -2 ^ (n - 1) ≤ v) (h2 : v < 2 ^ (n - 1)) : sgn n (low n v) = v := by
  obtain ⟨m, rfl⟩ := Nat.exists_eq_add_of_le hn
  have e2 : (1 + m - 1) = m := by omega
  rw [e2] at h1 h2
  have hp : (2 : Int) ^ (1 + m) = 2 * 2 ^ m := by rw [Nat.add_comm, Int.pow_succ, Int.mul_comm]
  have hpos : (0 : Int) < 2 ^ m := Int.pow_pos (by omega)
  have hc : (((2 : Nat) ^ m : Nat) : Int) = 2 ^ m := by norm_cast
  unfold sgn low
  rw [e2, hp]
  by_cases hv : 0 ≤ v
  · rw [Int.emod_eq_of_lt hv (by omega)]
    rw [if_pos (by omega)]
    omega
  · have hm : v % (2 * 2 ^ m) = v + 2 * 2 ^ m := by
      rw [← Int.add_emod_right, Int.emod_eq_of_lt (by omega) (by omega)]
    rw [hm, if_neg (by omega)]
    omega

/-! ### The claim for one instruction -/

/-- The word made for it is one the processor understands, and takes to do what the instruction says. -/
def Good (M : Fpu) (r : Req) : Prop :=
  ∃ w i, encode (instOf r) = some w ∧ w < 2 ^ 32 ∧ decode w = some i ∧ ∀ s, exec M i s = effect M r s

theorem good {M : Fpu} {r : Req} {w t rm x rn rd : Nat} {op : Op} {i : Insn} (hw : Word w t rm x rn rd)
    (hm : matchOp (instOf r) = some op) (hh : handle (instOf r).raw op (instOf r).ops = some w)
    (hd : decodeF t rm x rn rd = some i) (he : ∀ s, exec M i s = effect M r s) : Good M r := by
  refine ⟨w, i, ?_, hw.lt, by rw [hw.dec, hd], he⟩
  unfold encode
  rw [hm]
  simp only [hh]
  rw [if_neg hw.ne]

end Nature.Arm64
