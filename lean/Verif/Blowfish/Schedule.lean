import Verif.Blowfish.Cipher

/-! # The key schedule of the model is that of the specification -/

namespace Nature.Blowfish

open Spec (P S F encipher word cyclic addKey replace)

/-! ## The words of the key -/

theorem next_pos {n m : Nat} (h : 0 < n) :
    (if m % n + 1 ≥ n then 0 else m % n + 1) = (m + 1) % n := by
  have hl := Nat.mod_lt m h
  have e : (m + 1) % n = (m % n + 1) % n := by simp [Nat.add_mod]
  rw [e]
  split
  · rw [show m % n + 1 = n by omega, Nat.mod_self]
  · exact (Nat.mod_eq_of_lt (by omega)).symm

theorem nextByte_eq {b : List B} (h : 0 < b.length) (w : W) (m : Nat) :
    nextByte b b.length (w, m % b.length)
      = some ((w <<< 8) ||| (b.getD (m % b.length) 0).setWidth 32, (m + 1) % b.length) := by
  have hl := Nat.mod_lt m h
  simp only [nextByte, rd, List.getElem?_eq_getElem hl, Option.bind_eq_bind, Option.bind_some,
    next_pos h, List.getD, Option.getD_some]

theorem word_steps (a b c d : B) :
    ((((((0 : W) <<< 8) ||| a.setWidth 32) <<< 8 ||| b.setWidth 32) <<< 8 ||| c.setWidth 32) <<< 8)
      ||| d.setWidth 32 = word a b c d := by
  apply BitVec.eq_of_toNat_eq
  have ha := a.isLt; have hb := b.isLt; have hc := c.isLt; have hd := d.isLt
  have e : ∀ (w : W) (x : B), w.toNat < 2 ^ 24 →
      ((w <<< 8) ||| x.setWidth 32).toNat = w.toNat * 2 ^ 8 + x.toNat := by
    intro w x hw
    have hx := x.isLt
    rw [BitVec.toNat_or, BitVec.toNat_shiftLeft, BitVec.toNat_setWidth, Nat.shiftLeft_eq,
      Nat.mod_eq_of_lt (show w.toNat * 2 ^ 8 < 2 ^ 32 by omega),
      Nat.mod_eq_of_lt (show x.toNat < 2 ^ 32 by omega), or_add _ _ 8 hx]
  have e1 := e 0 a (by decide)
  have e2 := e _ b (by rw [e1]; simp; omega)
  have e3 := e _ c (by rw [e2, e1]; simp; omega)
  have e4 := e _ d (by rw [e3, e2, e1]; simp; omega)
  rw [e4, e3, e2, e1]
  simp only [word, BitVec.toNat_ofNat]
  omega

theorem getNextWord_eq {b : List B} (h : 0 < b.length) (i : Nat) :
    getNextWord b b.length (4 * i % b.length)
      = some (cyclic b i, 4 * (i + 1) % b.length) := by
  simp only [getNextWord, nextByte_eq h, Option.bind_eq_bind, Option.bind_some, cyclic,
    word_steps]
  congr 2

/-! ## Adding the key -/

theorem wr_some {v : List W} {i : Nat} (h : i < v.length) (x : W) : wr v i x = some (v.set i x) := by
  simp [wr, h]

theorem getD_set (v : List W) (i j : Nat) (x : W) (h : i < v.length) :
    (v.set i x).getD j 0 = if i = j then x else v.getD j 0 := by
  simp only [List.getD, List.getElem?_set]
  split
  · subst_vars; simp [h]
  · rfl

theorem ext_getD {u v : List W} (hl : u.length = v.length) (h : ∀ i, u.getD i 0 = v.getD i 0) :
    u = v := by
  apply List.ext_getElem hl
  intro i h1 h2
  have := h i
  simpa [List.getD, h1, h2] using this

theorem xorKey_loop {key : List B} (hk : 0 < key.length) {p : List W} (hp : p.length = 18) (n : Nat) :
    n ≤ 18 → ∃ q, (List.range n).foldlM (fun (s : List W × Nat) i => do
      let (d, j) ← getNextWord key key.length s.2
      let x ← rd s.1 i
      let p ← wr s.1 i (x ^^^ d)
      some (p, j)) (p, 0) = some (q, 4 * n % key.length) ∧ q.length = 18 ∧
      ∀ i, q.getD i 0 = if i < n then p.getD i 0 ^^^ cyclic key i else p.getD i 0 := by
  induction n with
  | zero => intro _; exact ⟨p, by simp, hp, by simp⟩
  | succ n ih =>
    intro hn
    obtain ⟨q, h1, h2, h3⟩ := ih (by omega)
    refine ⟨q.set n (q.getD n 0 ^^^ cyclic key n), ?_, by simp [h2], ?_⟩
    · rw [List.range_succ, List.foldlM_append, h1]
      simp only [List.foldlM_cons, List.foldlM_nil, Option.bind_eq_bind, Option.bind_some,
        getNextWord_eq hk, rd_some (show n < q.length by omega),
        wr_some (show n < q.length by omega), Option.pure_def]
    · intro i
      rw [getD_set _ _ _ _ (by omega), h3 n, h3 i]
      by_cases hin : n = i
      · subst hin; simp
      · by_cases hlt : i < n
        · simp [hin, hlt, show i < n + 1 by omega]
        · simp [hin, hlt, show ¬ i < n + 1 by omega]

theorem addKey_length (T : List W) (key : List B) : (addKey T key).length = 1042 := by
  simp [addKey]

theorem addKey_getD (T : List W) (key : List B) (h : T.length = 1042) (i : Nat) :
    (addKey T key).getD i 0 = if i < 18 then T.getD i 0 ^^^ cyclic key i else T.getD i 0 := by
  by_cases hi : i < 1042
  · simp [addKey, List.getD, P, hi]
  · simp [addKey, List.getD, hi, show ¬ i < 18 by omega, show T[i]? = none by simp; omega]

theorem xorKey_eq {key : List B} (hk : 0 < key.length) {c : Cipher} (h : Sized c) :
    ∃ c', xorKey key c = some c' ∧ Sized c' ∧ flat c' = addKey (flat c) key := by
  obtain ⟨q, h1, h2, h3⟩ := xorKey_loop hk h.p 18 (by omega)
  refine ⟨{ c with p := q }, ?_, ⟨h2, h.s0, h.s1, h.s2, h.s3⟩, ?_⟩
  · unfold xorKey
    rw [h1]
    rfl
  · have hs : Sized { c with p := q } := ⟨h2, h.s0, h.s1, h.s2, h.s3⟩
    apply ext_getD
    · rw [flat_length hs, addKey_length]
    · intro i
      rw [addKey_getD _ _ (flat_length h)]
      have hp := h.p
      by_cases hi : i < 18
      · have e1 := flat_P hs hi
        have e2 := flat_P h hi
        simp only [P] at e1 e2
        rw [e1, e2, h3]
      · simp only [flat, List.getD, hi, if_false]
        rw [List.getElem?_append_right (show q.length ≤ i by omega),
          List.getElem?_append_right (show c.p.length ≤ i by omega), h2, hp]

/-! ## The replacements -/

/-- `put` writes the vector of `n` words that starts at word `off` of the flat state. -/
def Puts (put : Cipher → Nat → W → Option Cipher) (off n : Nat) : Prop :=
  ∀ c i w, Sized c → i < n → ∃ c', put c i w = some c' ∧ Sized c' ∧
    flat c' = (flat c).set (off + i) w

theorem puts_p : Puts putP 0 18 := by
  intro c i w h hi
  have := h.p
  refine ⟨{ c with p := c.p.set i w }, ?_, ⟨by simp [h.p], h.s0, h.s1, h.s2, h.s3⟩, ?_⟩
  · simp [putP, wr_some (show i < c.p.length by omega)]
  · simp only [flat, Nat.zero_add]
    rw [List.set_append_left _ _ (by omega)]

theorem puts_s0 : Puts putS0 18 256 := by
  intro c i w h hi
  have := h.p; have := h.s0
  refine ⟨{ c with s0 := c.s0.set i w }, ?_, ⟨h.p, by simp [h.s0], h.s1, h.s2, h.s3⟩, ?_⟩
  · simp [putS0, wr_some (show i < c.s0.length by omega)]
  · simp only [flat]
    rw [List.set_append_right _ _ (by omega), List.set_append_left _ _ (by omega)]
    congr 3; omega

theorem puts_s1 : Puts putS1 274 256 := by
  intro c i w h hi
  have := h.p; have := h.s0; have := h.s1
  refine ⟨{ c with s1 := c.s1.set i w }, ?_, ⟨h.p, h.s0, by simp [h.s1], h.s2, h.s3⟩, ?_⟩
  · simp [putS1, wr_some (show i < c.s1.length by omega)]
  · simp only [flat]
    rw [List.set_append_right _ _ (by omega), List.set_append_right _ _ (by omega),
      List.set_append_left _ _ (by omega)]
    congr 4; omega

theorem puts_s2 : Puts putS2 530 256 := by
  intro c i w h hi
  have := h.p; have := h.s0; have := h.s1; have := h.s2
  refine ⟨{ c with s2 := c.s2.set i w }, ?_, ⟨h.p, h.s0, h.s1, by simp [h.s2], h.s3⟩, ?_⟩
  · simp [putS2, wr_some (show i < c.s2.length by omega)]
  · simp only [flat]
    rw [List.set_append_right _ _ (by omega), List.set_append_right _ _ (by omega),
      List.set_append_right _ _ (by omega), List.set_append_left _ _ (by omega)]
    congr 5; omega

theorem puts_s3 : Puts putS3 786 256 := by
  intro c i w h hi
  have := h.p; have := h.s0; have := h.s1; have := h.s2; have := h.s3
  refine ⟨{ c with s3 := c.s3.set i w }, ?_, ⟨h.p, h.s0, h.s1, h.s2, by simp [h.s3]⟩, ?_⟩
  · simp [putS3, wr_some (show i < c.s3.length by omega)]
  · simp only [flat]
    rw [List.set_append_right _ _ (by omega), List.set_append_right _ _ (by omega),
      List.set_append_right _ _ (by omega), List.set_append_right _ _ (by omega)]
    congr 5; omega

/-- The words that are added before each encryption. -/
def saltWords : Option (List B) → Nat → W
  | none => fun _ => 0
  | some b => cyclic b

/-- Where the salt is read next after `k` replacements. -/
def saltPos : Option (List B) → Nat → Nat
  | none, _ => 0
  | some b, k => 4 * (2 * k) % b.length

/-- The loop variables are those of the specification after `k` replacements. -/
structure At (T : List W) (salt : Option (List B)) (s : Loop) (k : Nat) : Prop where
  sized : Sized s.c
  flat : flat s.c = (replace T (saltWords salt) k).1
  l : s.l = (replace T (saltWords salt) k).2.1
  r : s.r = (replace T (saltWords salt) k).2.2
  j : s.j = saltPos salt k

theorem addSalt_eq {T : List W} {salt : Option (List B)} (hs : ∀ b, salt = some b → 0 < b.length)
    {s : Loop} {k : Nat} (h : At T salt s k) :
    addSalt salt s = some { s with
      l := s.l ^^^ saltWords salt (2 * k), r := s.r ^^^ saltWords salt (2 * k + 1),
      j := saltPos salt (k + 1) } := by
  cases salt with
  | none =>
    have hj := h.j
    simp only [saltPos] at hj
    obtain ⟨c, l, r, j⟩ := s
    subst hj
    simp [addSalt, saltWords, saltPos]
  | some b =>
    have hb := hs b rfl
    have hj := h.j
    simp only [saltPos] at hj
    simp only [addSalt, hj, getNextWord_eq hb, Option.bind_eq_bind, Option.bind_some, saltWords,
      saltPos]
    rfl

/-- Two steps of the loop, one that works and one that does nothing, are one replacement. -/
theorem refill_two {T : List W} {salt : Option (List B)}
    (hs : ∀ b, salt = some b → 0 < b.length) {put : Cipher → Nat → W → Option Cipher}
    {base n : Nat} (hput : Puts put (2 * base) n) {s : Loop} {m : Nat} (hm : 2 * m + 1 < n)
    (h : At T salt s (base + m)) :
    ∃ s', (refillStep salt n put s (2 * m)).bind (fun s => refillStep salt n put s (2 * m + 1))
      = some s' ∧ At T salt s' (base + m + 1) := by
  have hE := encryptBlock_eq h.sized (s.l ^^^ saltWords salt (2 * (base + m)))
    (s.r ^^^ saltWords salt (2 * (base + m) + 1))
  obtain ⟨l', r', hlr⟩ : ∃ l' r', encipher (flat s.c) (s.l ^^^ saltWords salt (2 * (base + m)),
    s.r ^^^ saltWords salt (2 * (base + m) + 1)) = (l', r') := ⟨_, _, rfl⟩
  rw [hlr] at hE
  obtain ⟨c1, p1, z1, f1⟩ := hput s.c (2 * m) l' h.sized (by omega)
  obtain ⟨c2, p2, z2, f2⟩ := hput c1 (2 * m + 1) r' z1 (by omega)
  refine ⟨⟨c2, l', r', saltPos salt (base + m + 1)⟩, ?_, ?_⟩
  · have e1 : refillStep salt n put s (2 * m)
        = some ⟨c2, l', r', saltPos salt (base + m + 1)⟩ := by
      unfold refillStep
      rw [if_pos (by omega), addSalt_eq hs h]
      simp only [Option.bind_eq_bind, Option.bind_some, hE, p1, if_pos hm, p2]
    rw [e1, Option.bind_some, refillStep, if_neg (by omega)]
  · have hr : replace T (saltWords salt) (base + m + 1)
        = (((flat s.c).set (2 * (base + m)) l').set (2 * (base + m) + 1) r', l', r') := by
      simp only [replace]
      rw [← h.flat, ← h.l, ← h.r, hlr]
    refine ⟨z2, ?_, by rw [hr], by rw [hr], rfl⟩
    rw [hr, f2, f1]
    show ((flat s.c).set (2 * base + 2 * m) l').set (2 * base + (2 * m + 1)) r' = _
    rw [show 2 * base + 2 * m = 2 * (base + m) by omega,
      show 2 * base + (2 * m + 1) = 2 * (base + m) + 1 by omega]

theorem refill_loop {T : List W} {salt : Option (List B)}
    (hs : ∀ b, salt = some b → 0 < b.length) {put : Cipher → Nat → W → Option Cipher}
    {base n : Nat} (hput : Puts put (2 * base) n) {s : Loop} (h : At T salt s base) (m : Nat) :
    2 * m ≤ n → ∃ s', (List.range (2 * m)).foldlM (refillStep salt n put) s = some s' ∧
      At T salt s' (base + m) := by
  induction m with
  | zero => intro _; exact ⟨s, rfl, h⟩
  | succ m ih =>
    intro hm
    obtain ⟨s1, e1, a1⟩ := ih (by omega)
    obtain ⟨s2, e2, a2⟩ := refill_two hs hput (by omega) a1
    refine ⟨s2, ?_, a2⟩
    rw [show 2 * (m + 1) = 2 * m + 1 + 1 by omega, List.range_succ, List.range_succ,
      List.append_assoc, List.foldlM_append, e1]
    simp only [List.singleton_append, List.foldlM_cons, List.foldlM_nil, Option.bind_eq_bind,
      Option.bind_some, Option.pure_def, Option.bind_fun_some]
    exact e2

theorem refill_eq {T : List W} {salt : Option (List B)}
    (hs : ∀ b, salt = some b → 0 < b.length) {put : Cipher → Nat → W → Option Cipher}
    {base m : Nat} (hput : Puts put (2 * base) (2 * m)) {s : Loop} (h : At T salt s base) :
    ∃ s', refill salt (2 * m) put s = some s' ∧ At T salt s' (base + m) :=
  refill_loop hs hput h m (Nat.le_refl _)

theorem refillAll_eq {salt : Option (List B)} (hs : ∀ b, salt = some b → 0 < b.length)
    {c : Cipher} (h : Sized c) :
    ∃ c', refillAll salt c = some c' ∧ Sized c' ∧
      flat c' = (replace (flat c) (saltWords salt) 521).1 := by
  have a0 : At (flat c) salt ⟨c, 0, 0, 0⟩ 0 :=
    ⟨h, rfl, rfl, rfl, by cases salt <;> simp [saltPos]⟩
  obtain ⟨s1, e1, a1⟩ := refill_eq (base := 0) (m := 9) hs puts_p a0
  obtain ⟨s2, e2, a2⟩ := refill_eq (base := 9) (m := 128) hs puts_s0 a1
  obtain ⟨s3, e3, a3⟩ := refill_eq (base := 137) (m := 128) hs puts_s1 a2
  obtain ⟨s4, e4, a4⟩ := refill_eq (base := 265) (m := 128) hs puts_s2 a3
  obtain ⟨s5, e5, a5⟩ := refill_eq (base := 393) (m := 128) hs puts_s3 a4
  refine ⟨s5.c, ?_, a5.sized, a5.flat⟩
  simp only [Nat.reduceMul] at e1 e2 e3 e4 e5
  simp only [refillAll, e1, e2, e3, e4, e5, Option.bind_eq_bind, Option.bind_some]

theorem expandKey_eq {key : List B} (hk : 0 < key.length) {c : Cipher} (h : Sized c) :
    ∃ c', expandKey key c = some c' ∧ Sized c' ∧ flat c' = Spec.expand (flat c) key := by
  obtain ⟨c1, e1, z1, f1⟩ := xorKey_eq hk h
  obtain ⟨c2, e2, z2, f2⟩ := refillAll_eq (salt := none) (fun b hb => by cases hb) z1
  refine ⟨c2, ?_, z2, ?_⟩
  · simp only [expandKey, e1, e2, Option.bind_eq_bind, Option.bind_some]
  · rw [f2, f1, Spec.expand]
    simp only [saltWords]

theorem expandKeyWithSalt_eq {key salt : List B} (hk : 0 < key.length) (hsalt : 0 < salt.length)
    {c : Cipher} (h : Sized c) :
    ∃ c', expandKeyWithSalt key salt c = some c' ∧ Sized c' ∧
      flat c' = Spec.expandSalted (flat c) key salt := by
  obtain ⟨c1, e1, z1, f1⟩ := xorKey_eq hk h
  obtain ⟨c2, e2, z2, f2⟩ := refillAll_eq (salt := some salt)
    (fun b hb => by cases hb; exact hsalt) z1
  refine ⟨c2, ?_, z2, ?_⟩
  · simp only [expandKeyWithSalt, e1, e2, Option.bind_eq_bind, Option.bind_some]
  · rw [f2, f1, Spec.expandSalted]
    simp only [saltWords]

end Nature.Blowfish
