import Verif.Sha.Model

/-!
# C101: the linker's hash is SHA-256, however the data is handed over
-/

namespace Nature.Sha

open Spec (Byte Word Eight)

/-! ### Words -/

theorem rotr_eq (v : Word) (n : Nat) (h : n < 32) : rotr v n = v.rotateRight n := by
  rw [rotr, BitVec.rotateRight_def, Nat.mod_eq_of_lt h]

theorem loadBe32_eq (p : List Byte) (n : Nat) :
    loadBe32 p n = (p.getD n 0 ++ p.getD (n + 1) 0 ++ p.getD (n + 2) 0 ++ p.getD (n + 3) 0 : BitVec 32) := by
  rw [loadBe32]
  generalize p.getD n 0 = a
  generalize p.getD (n + 1) 0 = b
  generalize p.getD (n + 2) 0 = c
  generalize p.getD (n + 3) 0 = d
  apply BitVec.eq_of_getLsbD_eq
  intro i hi
  simp only [BitVec.getLsbD_or, BitVec.getLsbD_shiftLeft, BitVec.getLsbD_setWidth, BitVec.getLsbD_append, hi, decide_true, Bool.true_and]
  by_cases h1 : i < 8
  · simp [h1, show i < 16 by omega, show i < 24 by omega]
  · by_cases h2 : i < 16
    · simp [h1, h2, show i < 24 by omega, show i - 8 < 8 by omega, show i - 8 < 32 by omega, BitVec.getLsbD_of_ge d i (by omega)]
    · by_cases h3 : i < 24
      · simp [h1, h2, h3, BitVec.getLsbD_of_ge d i (by omega), BitVec.getLsbD_of_ge c (i - 8) (by omega),
          show i - 16 < 32 by omega, show ¬ i - 8 < 8 by omega, show i - 8 - 8 = i - 16 by omega, show i - 16 < 8 by omega]
      · simp [h1, h2, h3, BitVec.getLsbD_of_ge d i (by omega), BitVec.getLsbD_of_ge c (i - 8) (by omega),
          BitVec.getLsbD_of_ge b (i - 16) (by omega),
          show i - 24 < 32 by omega, show ¬ i - 8 < 8 by omega, show i - 8 - 8 - 8 = i - 24 by omega, show ¬ i - 8 - 8 < 8 by omega]

theorem byteAt (n : BitVec w) (i : Nat) : (n >>> i).setWidth 8 = n.extractLsb' i 8 := by
  apply BitVec.eq_of_getLsbD_eq
  intro j hj
  simp only [BitVec.getLsbD_setWidth, BitVec.getLsbD_ushiftRight, BitVec.getLsbD_extractLsb', hj]

theorem storeBe32_eq (v : Word) : storeBe32 v = Spec.be32 v := by
  simp only [storeBe32, Spec.be32, byteAt]
  congr 3

theorem lengthBytes_eq (n : BitVec 64) : lengthBytes n = Spec.be64 n := by
  have h : ∀ i, (n >>> i).setWidth 8 = n.extractLsb' i 8 := byteAt n
  simp only [lengthBytes, h]
  rfl

/-! ### One block -/

theorem getD_snoc_lt (l : List α) (x d : α) (i : Nat) (h : i < l.length) : (l ++ [x]).getD i d = l.getD i d := by
  simp only [List.getD, List.getElem?_append_left h]

theorem getD_snoc_eq (l : List α) (x d : α) : (l ++ [x]).getD l.length d = x := by
  simp [List.getD]

theorem expand_inv (m : List Byte) (i : Nat) (w : List Word) (n : Nat) (hn : 16 ≤ n) (hl : w.length = n)
    (hw : ∀ t, t < n → w.getD t 0 = Spec.W m i t) :
    (expand w n).length = n + 1 ∧ ∀ t, t < n + 1 → (expand w n).getD t 0 = Spec.W m i t := by
  refine ⟨by simp [expand, hl], fun t ht => ?_⟩
  simp only [expand]
  by_cases h : t < n
  · rw [getD_snoc_lt _ _ _ _ (by omega)]; exact hw t h
  · have : t = w.length := by omega
    subst this
    rw [getD_snoc_eq, Spec.W, dif_neg (by omega), hl, hw _ (by omega), hw _ (by omega), hw _ (by omega), hw _ (by omega),
      rotr_eq _ _ (by decide), rotr_eq _ _ (by decide), rotr_eq _ _ (by decide), rotr_eq _ _ (by decide)]
    simp only [Spec.smallSigma0, Spec.smallSigma1]
    ac_rfl

theorem expand_loop (m : List Byte) (i : Nat) (c : Nat) : ∀ (w : List Word) (n : Nat), 16 ≤ n → w.length = n →
    (∀ t, t < n → w.getD t 0 = Spec.W m i t) →
    ∀ t, t < n + c → ((List.range' n c).foldl expand w).getD t 0 = Spec.W m i t := by
  induction c with
  | zero => intro w n _ _ h t ht; exact h t ht
  | succ c ih =>
    intro w n hn hl hw t ht
    rw [List.range'_succ, List.foldl_cons]
    have := expand_inv m i w n hn hl hw
    exact ih _ _ (by omega) this.1 this.2 t (by omega)

theorem schedule_eq (m : List Byte) (i : Nat) (block : List Byte) (hb : ∀ x, x < 64 → block.getD x 0 = m.getD (64 * i + x) 0)
    (t : Nat) (ht : t < 64) : (schedule block).getD t 0 = Spec.W m i t := by
  rw [schedule]
  refine expand_loop m i 48 _ 16 (Nat.le_refl _) (by simp) (fun t ht => ?_) t (by omega)
  rw [Spec.W, dif_pos ht, Spec.msgWord]
  simp only [List.getD, List.getElem?_map, List.getElem?_range ht, Option.map_some, Option.getD_some]
  rw [loadBe32_eq, hb _ (by omega), hb _ (by omega), hb _ (by omega), hb _ (by omega)]
  simp only [List.getD, Nat.mul_comm t 4, Nat.add_assoc]

theorem rounds_eq (m : List Byte) (i : Nat) (w : List Word) (v : Eight) (hw : ∀ t, t < 64 → w.getD t 0 = Spec.W m i t) (n : Nat) :
    n ≤ 64 → (List.range n).foldl (round w) v = Spec.vars k (Spec.W m i) v n := by
  induction n with
  | zero => intro _; rfl
  | succ n ih =>
    intro hn
    rw [List.range_succ, List.foldl_append, ih (by omega), List.foldl_cons, List.foldl_nil]
    simp only [round, Spec.vars, hw n (by omega), rotr_eq _ 6 (by decide), rotr_eq _ 11 (by decide), rotr_eq _ 25 (by decide),
      rotr_eq _ 2 (by decide), rotr_eq _ 13 (by decide), rotr_eq _ 22 (by decide)]
    rfl

theorem transform_eq (m : List Byte) (i : Nat) (v : Eight) (block : List Byte)
    (hb : ∀ x, x < 64 → block.getD x 0 = m.getD (64 * i + x) 0) :
    transform v block = (Spec.vars k (Spec.W m i) v 64).plus v := by
  rw [transform, rounds_eq m i _ v (schedule_eq m i block hb) 64 (Nat.le_refl _)]
  simp only [Spec.Eight.plus, BitVec.add_comm]

/-! ### The constants -/

/-- The first 64 primes. -/
def primes : List Nat :=
  [2, 3, 5, 7, 11, 13, 17, 19, 23, 29, 31, 37, 41, 43, 47, 53, 59, 61, 67, 71, 73, 79, 83, 89, 97, 101, 103, 107, 109, 113, 127, 131, 137,
   139, 149, 151, 157, 163, 167, 173, 179, 181, 191, 193, 197, 199, 211, 223, 227, 229, 233, 239, 241, 251, 257, 263, 269, 271, 277, 281,
   283, 293, 307, 311]

theorem primes_first : Spec.FirstPrimes primes := by
  refine ⟨by decide +kernel, fun n => ?_⟩
  have key : ∀ n, n < 312 → (n ∈ primes ↔ 2 ≤ n ∧ ∀ d, d < n + 1 → d ∣ n → d = 1 ∨ d = n) := by decide +kernel
  have top : ∀ q, q ∈ primes → q < 312 := by decide +kernel
  constructor
  · intro h
    have h' := (key n (top n h)).1 h
    refine ⟨⟨h'.1, fun d hd => h'.2 d ?_ hd⟩, n, h, Nat.le_refl _⟩
    have := Nat.le_of_dvd (by omega) hd
    omega
  · rintro ⟨hp, q, hq, hle⟩
    have := top q hq
    exact (key n (by omega)).2 ⟨hp.1, fun d _ hd => hp.2 d hd⟩

theorem constants : Spec.Constants k (init []).state := by
  refine ⟨primes, primes_first, rfl, rfl, ?_, ?_⟩
  · have h : ∀ i, i < 64 → ∃ n, n < 8 ∧ (n * 2 ^ 32 + (k.getD i 0).toNat) ^ 3 ≤ primes.getD i 0 * 2 ^ 96 ∧
        primes.getD i 0 * 2 ^ 96 < (n * 2 ^ 32 + (k.getD i 0).toNat + 1) ^ 3 := by decide +kernel
    intro i hi
    obtain ⟨n, _, h⟩ := h i hi
    exact ⟨n, h⟩
  · have h : ∀ i, i < 8 → ∃ n, n < 5 ∧ (n * 2 ^ 32 + ((init []).state.words.getD i 0).toNat) ^ 2 ≤ primes.getD i 0 * 2 ^ 64 ∧
        primes.getD i 0 * 2 ^ 64 < (n * 2 ^ 32 + ((init []).state.words.getD i 0).toNat + 1) ^ 2 := by decide +kernel
    intro i hi
    obtain ⟨n, _, h⟩ := h i hi
    exact ⟨n, h⟩

/-! ### Taking in bytes -/

/-- The hash value depends on the blocks only. -/
theorem W_append (m d : List Byte) (i : Nat) (h : 64 * (i + 1) ≤ m.length) (t : Nat) : Spec.W (m ++ d) i t = Spec.W m i t := by
  have get : ∀ x, x < m.length → (m ++ d).getD x 0 = m.getD x 0 := fun x hx => by simp only [List.getD, List.getElem?_append_left hx]
  induction t using Nat.strongRecOn with
  | ind t ih =>
    rw [Spec.W, Spec.W.eq_1 m]
    by_cases ht : t < 16
    · rw [dif_pos ht, dif_pos ht, Spec.msgWord, Spec.msgWord, get _ (by omega), get _ (by omega), get _ (by omega), get _ (by omega)]
    · rw [dif_neg ht, dif_neg ht, ih _ (by omega), ih _ (by omega), ih _ (by omega), ih _ (by omega)]

theorem hashAfter_append (H0 : Eight) (m d : List Byte) (i : Nat) :
    64 * i ≤ m.length → Spec.hashAfter k H0 (m ++ d) i = Spec.hashAfter k H0 m i := by
  induction i with
  | zero => intro _; rfl
  | succ i ih =>
    intro h
    have : Spec.W (m ++ d) i = Spec.W m i := funext (W_append m d i h)
    rw [Spec.hashAfter, Spec.hashAfter, ih (by omega), this]

/-- The context after the message `m`. -/
structure Inv (c : Ctx) (m : List Byte) : Prop where
  size : c.block.length = 64
  len : c.blockLen = m.length % 64
  rest : c.block.take c.blockLen = m.drop (64 * (m.length / 64))
  state : c.state = Spec.hashAfter k (init []).state m (m.length / 64)

theorem turn_inv (c : Ctx) (m d : List Byte) (n : Nat) (h : Inv c m) (hd : d.length = n) (hn : n ≤ 64 - c.blockLen) (e : List Byte) :
    Inv (turn c (d ++ e) n) (m ++ d) := by
  have hlen := h.len
  have hsize := h.size
  have hrest := h.rest
  have hbl : c.blockLen < 64 := by omega
  have hcopy : memcpy c.block c.blockLen (d ++ e) n = m.drop (64 * (m.length / 64)) ++ d ++ c.block.drop (c.blockLen + n) := by
    rw [memcpy, hrest]
    congr 2
    rw [← hd]; simp
  have hlm : (m ++ d).length = m.length + n := by simp [hd]
  have hbig : (m.drop (64 * (m.length / 64))).length = c.blockLen := by rw [List.length_drop]; omega
  have happ : (m ++ d).drop (64 * (m.length / 64)) = m.drop (64 * (m.length / 64)) ++ d := by
    rw [List.drop_append_of_le_length (by omega)]
  simp only [turn]
  split
  · rename_i heq
    have hn2 : n = 64 - c.blockLen := by omega
    have hdiv : (m ++ d).length / 64 = m.length / 64 + 1 := by omega
    have hfull : memcpy c.block c.blockLen (d ++ e) n = m.drop (64 * (m.length / 64)) ++ d := by
      rw [hcopy, List.drop_eq_nil_of_le (as := c.block) (by omega), List.append_nil]
    refine ⟨?_, ?_, ?_, ?_⟩
    · simp only [hfull, List.length_append, hbig]; omega
    · simp only; omega
    · simp only [List.take_zero]
      rw [List.drop_eq_nil_of_le (by omega)]
    · simp only
      rw [hdiv, Spec.hashAfter, hashAfter_append _ _ _ _ (by omega), h.state]
      apply transform_eq
      intro x hx
      rw [hfull, ← happ]
      simp [List.getD, List.getElem?_drop]
  · rename_i heq
    have hdiv : (m ++ d).length / 64 = m.length / 64 := by omega
    refine ⟨?_, ?_, ?_, ?_⟩
    · simp only [hcopy, List.length_append, hbig, List.length_drop]; omega
    · simp only; omega
    · simp only
      rw [hdiv, happ, hcopy]
      have : (m.drop (64 * (m.length / 64)) ++ d).length = c.blockLen + n := by simp only [List.length_append, hbig]; omega
      rw [← this, List.take_left']
      rfl
    · simp only
      rw [hdiv, hashAfter_append _ _ _ _ (by omega), h.state]

theorem loop_inv (d : List Byte) : ∀ (c : Ctx) (m : List Byte), Inv c m → Inv (loop c d) (m ++ d) := by
  induction hl : d.length using Nat.strongRecOn generalizing d with
  | ind n ih =>
    intro c m h
    have hbl : c.blockLen < 64 := by have := h.len; omega
    rw [loop]
    split
    · rename_i hc
      have hts : takeSize c d.length ≤ 64 - c.blockLen ∧ takeSize c d.length ≤ d.length := by
        simp only [takeSize]; split <;> omega
      have hsplit : d.take (takeSize c d.length) ++ d.drop (takeSize c d.length) = d := List.take_append_drop _ _
      have h1 := turn_inv c m (d.take (takeSize c d.length)) (takeSize c d.length) h (by rw [List.length_take]; omega) hts.1
        (d.drop (takeSize c d.length))
      rw [hsplit] at h1
      have h2 := ih _ (by rw [List.length_drop]; omega) (d.drop (takeSize c d.length)) rfl _ _ h1
      rw [List.append_assoc, hsplit] at h2
      exact h2
    · rename_i hc
      have : d = [] := by
        rcases d with _ | ⟨x, d⟩
        · rfl
        · exact absurd ⟨by simp, by simp only [takeSize]; split <;> simp <;> omega⟩ hc
      subst this
      simpa using h

theorem update_inv (c : Ctx) (m d : List Byte) (h : Inv c m) : Inv (update c d) (m ++ d) :=
  loop_inv d _ m ⟨h.size, h.len, h.rest, h.state⟩

theorem loop_bits (c : Ctx) (d : List Byte) : (loop c d).bitCount = c.bitCount := by
  induction hl : d.length using Nat.strongRecOn generalizing d c with
  | ind n ih =>
    rw [loop]
    split
    · rename_i hc
      rw [ih _ (by rw [List.length_drop]; omega) _ _ rfl]
      simp only [turn]; split <;> rfl
    · rfl

theorem update_bits (c : Ctx) (m d : List Byte) (h : c.bitCount = BitVec.ofNat 64 (8 * m.length)) :
    (update c d).bitCount = BitVec.ofNat 64 (8 * (m ++ d).length) := by
  rw [update, loop_bits]
  simp only [h]
  apply BitVec.eq_of_toNat_eq
  simp only [BitVec.toNat_add, BitVec.toNat_mul, BitVec.toNat_ofNat, List.length_append, BitVec.ofNat_eq_ofNat]
  omega

theorem updates_inv (ds : List (List Byte)) : ∀ (c : Ctx) (m : List Byte), Inv c m → c.bitCount = BitVec.ofNat 64 (8 * m.length) →
    Inv (ds.foldl update c) (m ++ ds.flatten) ∧ (ds.foldl update c).bitCount = BitVec.ofNat 64 (8 * (m ++ ds.flatten).length) := by
  induction ds with
  | nil => intro c m h hb; simpa using And.intro h hb
  | cons d ds ih =>
    intro c m h hb
    have := ih (update c d) (m ++ d) (update_inv c m d h) (update_bits c m d hb)
    simpa [List.foldl_cons, List.flatten_cons, List.append_assoc] using this

theorem final_eq (c : Ctx) (m : List Byte) (h : Inv c m) (hb : c.bitCount = BitVec.ofNat 64 (8 * m.length)) :
    Spec.Digest m (final c) := by
  have hbl : c.blockLen < 64 := by have := h.len; omega
  have hl := h.len
  simp only [final, hb, lengthBytes_eq]
  generalize hn : (if c.blockLen < 56 then 56 - c.blockLen else 120 - c.blockLen) = n
  have hn1 : 1 ≤ n ∧ n ≤ 64 ∧ (m.length + n + 8) % 64 = 0 := by split at hn <;> omega
  have hpad : padding.take n = [0x80#8] ++ List.replicate (n - 1) 0#8 := by
    obtain ⟨n, rfl⟩ : ∃ n', n = n' + 1 := ⟨n - 1, by omega⟩
    simp only [padding, List.take_succ_cons, List.take_replicate, Nat.add_sub_cancel, List.cons_append, List.nil_append]
    rw [Nat.min_eq_left (by omega)]
    rfl
  have h1 := update_inv c m (padding.take n) h
  have h2 := update_inv _ _ (Spec.be64 (BitVec.ofNat 64 (8 * m.length))) h1
  refine ⟨k, (init []).state, m ++ padding.take n ++ Spec.be64 (BitVec.ofNat 64 (8 * m.length)), constants,
    ⟨n - 1, ⟨by omega, fun y hy => by omega⟩, ?_⟩, ?_⟩
  · rw [hpad]; simp only [List.append_assoc]
  · rw [h2.state, funext storeBe32_eq]

/-! ### The specification leaves no choice -/

theorem sorted_sublist : ∀ (b a : List Nat), a.Pairwise (· < ·) → b.Pairwise (· < ·) → (∀ x, x ∈ a → x ∈ b) → a.Sublist b := by
  intro b
  induction b with
  | nil =>
    intro a _ _ h
    rcases a with _ | ⟨x, a⟩
    · exact List.Sublist.slnil
    · exact absurd (h x (by simp)) (by simp)
  | cons y b ih =>
    intro a ha hb h
    rcases a with _ | ⟨x, a⟩
    · exact List.nil_sublist _
    · rw [List.pairwise_cons] at ha hb
      rcases List.mem_cons.1 (h x (by simp)) with hx | hx
      · subst hx
        refine (ih a ha.2 hb.2 fun z hz => ?_).cons_cons _
        rcases List.mem_cons.1 (h z (by simp [hz])) with h' | h'
        · have := ha.1 z hz; omega
        · exact h'
      · refine (ih (x :: a) (List.pairwise_cons.2 ha) hb.2 fun z hz => ?_).cons _
        rcases List.mem_cons.1 (h z hz) with h' | h'
        · subst h'
          have := hb.1 x hx
          rcases List.mem_cons.1 hz with h2 | h2
          · omega
          · have := ha.1 z h2; omega
        · exact h'

theorem primes_unique (ps : List Nat) (h : Spec.FirstPrimes ps) (hl : ps.length = 64) : ps = primes := by
  have hp := primes_first
  by_cases hq : ∃ q ∈ ps, 311 ≤ q
  · obtain ⟨q, hq, hle⟩ := hq
    have top : ∀ q, q ∈ primes → q ≤ 311 := by decide +kernel
    exact ((sorted_sublist ps primes hp.1 h.1 fun x hx =>
      (h.2 x).2 ⟨((hp.2 x).1 hx).1, q, hq, Nat.le_trans (top x hx) hle⟩).eq_of_length hl.symm).symm
  · refine (sorted_sublist primes ps h.1 hp.1 fun x hx => (hp.2 x).2 ⟨((h.2 x).1 hx).1, 311, by decide +kernel, ?_⟩).eq_of_length hl
    have : ¬ 311 ≤ x := fun hle => hq ⟨x, hx, hle⟩
    omega

theorem root_unique (e x y a : Nat) (hx : x ^ e ≤ a ∧ a < (x + 1) ^ e) (hy : y ^ e ≤ a ∧ a < (y + 1) ^ e) : x = y := by
  rcases Nat.lt_trichotomy x y with h | h | h
  · have := Nat.pow_le_pow_left (show x + 1 ≤ y from h) e; omega
  · exact h
  · have := Nat.pow_le_pow_left (show y + 1 ≤ x from h) e; omega

theorem word_unique (n m : Nat) (w v : Word) (h : n * 2 ^ 32 + w.toNat = m * 2 ^ 32 + v.toNat) : w = v := by
  apply BitVec.eq_of_toNat_eq
  have := w.isLt; have := v.isLt
  omega

theorem list_unique (a b : List Word) (n : Nat) (ha : a.length = n) (hb : b.length = n) (h : ∀ i, i < n → a.getD i 0 = b.getD i 0) :
    a = b := by
  apply List.ext_getElem (by omega)
  intro i h1 h2
  have := h i (by omega)
  simpa [List.getD, h1, h2] using this

theorem constants_unique (K K' : List Word) (H H' : Eight) (h : Spec.Constants K H) (h' : Spec.Constants K' H') : K = K' ∧ H = H' := by
  obtain ⟨ps, hp, hl, hK, hc, hs⟩ := h
  obtain ⟨ps', hp', hl', hK', hc', hs'⟩ := h'
  have e := primes_unique ps hp hl
  have e' := primes_unique ps' hp' hl'
  subst e; subst e'
  constructor
  · apply list_unique K K' 64 hK hK'
    intro i hi
    obtain ⟨n, hn⟩ := hc i hi
    obtain ⟨n', hn'⟩ := hc' i hi
    exact word_unique n n' _ _ (root_unique 3 _ _ _ hn hn')
  · have : H.words = H'.words := by
      apply list_unique _ _ 8 rfl rfl
      intro i hi
      obtain ⟨n, hn⟩ := hs i hi
      obtain ⟨n', hn'⟩ := hs' i hi
      exact word_unique n n' _ _ (root_unique 2 _ _ _ hn hn')
    cases H; cases H'
    simpa [Spec.Eight.words] using this

/-- A message has one digest only. -/
theorem C101_spec_unique (m d d' : List Byte) (h : Spec.Digest m d) (h' : Spec.Digest m d') : d = d' := by
  obtain ⟨K, H, p, hc, ⟨z, hz, hp⟩, hd⟩ := h
  obtain ⟨K', H', p', hc', ⟨z', hz', hp'⟩, hd'⟩ := h'
  obtain ⟨rfl, rfl⟩ := constants_unique K K' H H' hc hc'
  have : z = z' := Nat.le_antisymm (hz.2 z' hz'.1) (hz'.2 z hz.1)
  subst this
  rw [hd, hd', hp, hp']

/-! ### C101 -/

/-- **C101.**  A context that is set up (whatever its memory held), given any pieces in turn and finished gives the SHA-256 digest of the
pieces put together. -/
theorem C101_digest (memory : List Byte) (hm : memory.length = 64) (pieces : List (List Byte)) :
    Spec.Digest pieces.flatten (final (pieces.foldl update (init memory))) := by
  have h0 : Inv (init memory) [] := ⟨hm, rfl, rfl, rfl⟩
  have h := updates_inv pieces _ _ h0 rfl
  rw [List.nil_append] at h
  exact final_eq _ _ h.1 h.2

/-- **C101.**  The one-shot function gives the digest of the data. -/
theorem C101_one_shot (memory : List Byte) (hm : memory.length = 64) (data : List Byte) : Spec.Digest data (sha256 memory data) := by
  simpa [sha256] using C101_digest memory hm [data]

/-- **C101.**  How the data is cut into pieces makes no difference. -/
theorem C101_pieces (memory memory' : List Byte) (hm : memory.length = 64) (hm' : memory'.length = 64) (p q : List (List Byte))
    (h : p.flatten = q.flatten) : final (p.foldl update (init memory)) = final (q.foldl update (init memory')) :=
  C101_spec_unique _ _ _ (C101_digest memory hm p) (h ▸ C101_digest memory' hm' q)

/-- Example B.1 of the standard: "abc", given in two pieces. -/
example : final ([[0x61#8], [0x62#8, 0x63#8]].foldl update (init (List.replicate 64 0xaa#8))) =
    [0xba, 0x78, 0x16, 0xbf, 0x8f, 0x01, 0xcf, 0xea, 0x41, 0x41, 0x40, 0xde, 0x5d, 0xae, 0x22, 0x23,
     0xb0, 0x03, 0x61, 0xa3, 0x96, 0x17, 0x7a, 0x9c, 0xb4, 0x10, 0xff, 0x61, 0xf2, 0x00, 0x15, 0xad] := by decide +kernel

/-- The conditions hold for it. -/
example : Spec.Digest [0x61#8, 0x62#8, 0x63#8] (sha256 (List.replicate 64 0xaa#8) [0x61#8, 0x62#8, 0x63#8]) :=
  C101_one_shot _ (by decide) _

end Nature.Sha
