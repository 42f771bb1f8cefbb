import Verif.Fmt.Scan
import Verif.Fmt.Print
namespace Nature.Fmt

/-! ### Wrapping -/

theorem wrapS_add_mul (N : Nat) (a k : Int) : wrapS N (a + k * 2 ^ N) = wrapS N a := by
  rw [wrapS, wrapS, show a + k * 2 ^ N + 2 ^ (N - 1) = a + 2 ^ (N - 1) + k * 2 ^ N by omega, Int.add_mul_emod_self_right]

theorem wrapS_eq (N : Nat) (a : Int) : ∃ k : Int, wrapS N a = a + k * 2 ^ N := by
  refine ⟨-((a + 2 ^ (N - 1)) / 2 ^ N), ?_⟩
  have := Int.emod_add_ediv_mul (a + 2 ^ (N - 1)) (2 ^ N)
  rw [wrapS, Int.neg_mul]
  omega

theorem wrapS_step (N : Nat) (a b d : Int) : wrapS N (wrapS N a * b + d) = wrapS N (a * b + d) := by
  obtain ⟨k, h⟩ := wrapS_eq N a
  rw [h, show (a + k * 2 ^ N) * b + d = a * b + d + (k * b) * 2 ^ N by
    rw [Int.add_mul, Int.mul_right_comm]; omega, wrapS_add_mul]

theorem wrapS_neg (N : Nat) (a : Int) : wrapS N (-wrapS N a) = wrapS N (-a) := by
  have := wrapS_step N a (-1) 0
  rw [Int.add_zero, Int.add_zero] at this
  rw [← Int.mul_neg_one, this, Int.mul_neg_one]

theorem pow_split {N M : Nat} (h : N ≤ M) : (2 : Int) ^ M = 2 ^ (M - N) * 2 ^ N := by
  rw [← Int.pow_add]; congr 1; omega

theorem wrapS_wrapS {N M : Nat} (h : N ≤ M) (a : Int) : wrapS N (wrapS M a) = wrapS N a := by
  obtain ⟨k, hk⟩ := wrapS_eq M a
  rw [hk, pow_split h, ← Int.mul_assoc, wrapS_add_mul]

theorem wrapS_emod {N M : Nat} (h : N ≤ M) (a : Int) : wrapS M a % 2 ^ N = a % 2 ^ N := by
  obtain ⟨k, hk⟩ := wrapS_eq M a
  rw [hk, pow_split h, ← Int.mul_assoc, Int.add_mul_emod_self_right]

/-! ### Digits of a numeral -/

theorem digitVal_dec {c : Byte} {d : Nat} (h : digitVal c = some d) (hd : d < 10) : (48 ≤ c ∧ c ≤ 57) ∧ d = c.toNat - 48 := by
  rw [digitVal] at h
  split at h
  · rename_i hc; exact ⟨hc, (Option.some.inj h).symm⟩
  · split at h
    · rename_i hc
      have h1 : (97 : Byte).toNat ≤ c.toNat := hc.1
      have : (97 : Byte).toNat = 97 := rfl
      have := Option.some.inj h
      omega
    · split at h
      · rename_i hc
        have h1 : (65 : Byte).toNat ≤ c.toNat := hc.1
        have : (65 : Byte).toNat = 65 := rfl
        have := Option.some.inj h
        omega
      · cases h

/-- The value as a fold from any start, when it exists. -/
theorem value_fold {b : Nat} : ∀ (l : List Byte) (a n : Nat),
    l.foldl (fun acc c => acc.bind fun a => (digitVal c).bind fun d => if d < b then some (a * b + d) else none) (some a) = some n →
    (∀ c ∈ l, ∃ d, digitVal c = some d ∧ d < b) ∧ l.foldl (fun a c => a * b + (digitVal c).getD 0) a = n := by
  intro l
  induction l with
  | nil => intro a n h; exact ⟨by simp, Option.some.inj h⟩
  | cons c l ih =>
    intro a n h
    rw [List.foldl_cons] at h
    cases hd : digitVal c with
    | none =>
      exfalso
      have hnone : ∀ l : List Byte, l.foldl (fun acc c => acc.bind fun a => (digitVal c).bind fun d =>
          if d < b then some (a * b + d) else none) none = none := by
        intro l; induction l with
        | nil => rfl
        | cons c l ih => exact ih
      rw [hd] at h
      rw [show ((some a).bind fun a => (none : Option Nat).bind fun d => if d < b then some (a * b + d) else none) = none from rfl,
        hnone] at h
      cases h
    | some d =>
      rw [hd] at h
      by_cases hlt : d < b
      · rw [show ((some a).bind fun a => (some d).bind fun d => if d < b then some (a * b + d) else none) = some (a * b + d) from
          if_pos hlt] at h
        obtain ⟨h1, h2⟩ := ih _ _ h
        refine ⟨?_, by rw [List.foldl_cons, hd]; exact h2⟩
        intro x hx
        rcases List.mem_cons.1 hx with rfl | hx
        · exact ⟨d, hd, hlt⟩
        · exact h1 x hx
      · exfalso
        have hnone : ∀ l : List Byte, l.foldl (fun acc c => acc.bind fun a => (digitVal c).bind fun d =>
            if d < b then some (a * b + d) else none) none = none := by
          intro l; induction l with
          | nil => rfl
          | cons c l ih => exact ih
        rw [show ((some a).bind fun a => (some d).bind fun d => if d < b then some (a * b + d) else none) = none from
          if_neg hlt, hnone] at h
        cases h

theorem scanDec_digits : ∀ (l rest : List Byte) (cnt : Nat) (a : Int) (h : Bool),
    (∀ c ∈ l, ∃ d, digitVal c = some d ∧ d < 10) → NoDigit rest → (l ≠ [] ∨ h = true) →
    scanDec 0 cnt (wrapS 64 a) h (l ++ rest) =
      (wrapS 64 (l.foldl (fun (a : Int) c => a * 10 + (digitVal c).getD 0) a), true, rest) := by
  intro l
  induction l with
  | nil =>
    intro rest cnt a h _ hr hh
    have hh : h = true := by rcases hh with hh | hh; exact absurd rfl hh; exact hh
    subst hh
    cases rest with
    | nil => rfl
    | cons c t =>
      rw [List.nil_append, scanDec, if_neg]
      · rfl
      · rintro ⟨_, hc⟩; exact hr c rfl (isDigit_iff.1 hc)
  | cons c l ih =>
    intro rest cnt a h hl hr _
    obtain ⟨d, hd, hlt⟩ := hl c (by simp)
    obtain ⟨hc, he⟩ := digitVal_dec hd hlt
    rw [List.cons_append, scanDec, if_pos ⟨Or.inl rfl, isDigit_iff.2 hc⟩, wrapS_step,
      ih rest _ _ _ (fun x hx => hl x (by simp [hx])) hr (Or.inr rfl), List.foldl_cons, hd, ← he]
    rfl

theorem fold_cast (b : Nat) : ∀ (l : List Byte) (a : Nat), l.foldl (fun (a : Int) c => a * b + (digitVal c).getD 0) a =
    (l.foldl (fun a c => a * b + (digitVal c).getD 0) a : Nat) := by
  intro l
  induction l with
  | nil => intro a; rfl
  | cons c l ih =>
    intro a
    rw [List.foldl_cons, List.foldl_cons, ← ih]
    congr 1

theorem scanDec_numeral {l rest : List Byte} {n cnt : Nat} (h : Numeral 10 l n) (hr : NoDigit rest) :
    scanDec 0 cnt 0 false (l ++ rest) = (wrapS 64 n, true, rest) := by
  obtain ⟨h1, h2⟩ := value_fold l 0 n h.val
  have h0 : wrapS 64 0 = 0 := by decide
  have := scanDec_digits l rest cnt 0 false h1 hr (Or.inl h.ne)
  rw [h0] at this
  rw [this]
  have hc := fold_cast 10 l 0
  rw [h2] at hc
  rw [show (n : Int) = _ from hc.symm]
  rfl

theorem hexDigit_eq (c : Byte) : hexDigit c = digitVal c := by
  rw [hexDigit, digitVal]
  by_cases h1 : 48 ≤ c ∧ c ≤ 57
  · rw [if_pos h1, if_pos h1]
  · rw [if_neg h1, if_neg h1]
    by_cases h2 : 97 ≤ c ∧ c ≤ 102
    · rw [if_pos h2, if_pos h2]
      congr 1
      rw [UInt8.toNat_add, UInt8.toNat_sub_of_le _ _ h2.1]
      have a1 : (97 : Byte).toNat ≤ c.toNat := h2.1
      have a2 : c.toNat ≤ (102 : Byte).toNat := h2.2
      have e1 : (97 : Byte).toNat = 97 := rfl
      have e2 : (102 : Byte).toNat = 102 := rfl
      have e3 : (10 : Byte).toNat = 10 := rfl
      omega
    · rw [if_neg h2, if_neg h2]
      by_cases h3 : 65 ≤ c ∧ c ≤ 70
      · rw [if_pos h3, if_pos h3]
        congr 1
        rw [UInt8.toNat_add, UInt8.toNat_sub_of_le _ _ h3.1]
        have a1 : (65 : Byte).toNat ≤ c.toNat := h3.1
        have a2 : c.toNat ≤ (70 : Byte).toNat := h3.2
        have e1 : (65 : Byte).toNat = 65 := rfl
        have e2 : (70 : Byte).toNat = 70 := rfl
        have e3 : (10 : Byte).toNat = 10 := rfl
        omega
      · rw [if_neg h3, if_neg h3]

/-- What does not start with a hexadecimal digit. -/
def NoHex (l : List Byte) : Prop := ∀ c, l.head? = some c → digitVal c = none

theorem mod_step (a d : Nat) : (a % 2 ^ 64 * 16 + d) % 2 ^ 64 = (a * 16 + d) % 2 ^ 64 := by
  rw [Nat.add_mod, Nat.mod_mul_mod, ← Nat.add_mod]

theorem scanHex_digits : ∀ (l rest : List Byte) (cnt a : Nat) (h : Bool),
    (∀ c ∈ l, ∃ d, digitVal c = some d ∧ d < 16) → NoHex rest → (l ≠ [] ∨ h = true) →
    scanHex 0 cnt (a % 2 ^ 64) h (l ++ rest) =
      (l.foldl (fun a c => a * 16 + (digitVal c).getD 0) a % 2 ^ 64, true, rest) := by
  intro l
  induction l with
  | nil =>
    intro rest cnt a h _ hr hh
    have hh : h = true := by rcases hh with hh | hh; exact absurd rfl hh; exact hh
    subst hh
    cases rest with
    | nil => rfl
    | cons c t =>
      rw [List.nil_append, scanHex, if_pos (Or.inl rfl), hexDigit_eq, hr c rfl]; rfl
  | cons c l ih =>
    intro rest cnt a h hl hr _
    obtain ⟨d, hd, hlt⟩ := hl c (by simp)
    rw [List.cons_append, scanHex, if_pos (Or.inl rfl), hexDigit_eq, hd]
    dsimp only
    rw [mod_step, ih rest _ _ _ (fun x hx => hl x (by simp [hx])) hr (Or.inr rfl), List.foldl_cons, hd]
    rfl

theorem scanHex_numeral {l rest : List Byte} {n cnt : Nat} (h : Numeral 16 l n) (hr : NoHex rest) :
    scanHex 0 cnt 0 false (l ++ rest) = (n % 2 ^ 64, true, rest) := by
  obtain ⟨h1, h2⟩ := value_fold l 0 n h.val
  have := scanHex_digits l rest cnt 0 false h1 hr (Or.inl h.ne)
  rw [h2] at this
  exact this

theorem scanWord_all : ∀ (w rest : List Byte) (cnt : Nat), 32 ∉ w → (rest = [] ∨ rest.head? = some 32) →
    scanWord 0 cnt (w ++ rest) = (w, rest) := by
  intro w
  induction w with
  | nil =>
    intro rest cnt _ hr
    cases rest with
    | nil => rfl
    | cons c t =>
      have : c = 32 := by simpa using hr
      rw [List.nil_append, scanWord, if_neg (by simp [this])]
  | cons c w ih =>
    intro rest cnt hw hr
    have hc : c ≠ 32 := fun e => hw (by simp [e])
    rw [List.cons_append, scanWord, if_pos ⟨Or.inl rfl, hc⟩, ih rest _ (fun hm => hw (by simp [hm])) hr]

/-! ### The separators -/

theorem skipSp_of_head {s : List Byte} (h : s.head? ≠ some 32) : skipSp s = s := by
  cases s with
  | nil => rfl
  | cons c t =>
    rw [skipSp, List.dropWhile_cons, if_neg]
    simpa using h

theorem skipSp_cons (t : List Byte) : skipSp (32 :: t) = skipSp t := by
  rw [skipSp, List.dropWhile_cons, if_pos (by simp)]; rfl

theorem skipSp_idem (t : List Byte) : skipSp (skipSp t) = skipSp t := by
  induction t with
  | nil => rfl
  | cons c t ih =>
    by_cases h : c = 32
    · rw [h, skipSp_cons, ih]
    · rw [skipSp_of_head (s := c :: t) (by simpa using h), skipSp_of_head (by simpa using h)]

theorem skipSp_ne {s t : List Byte} (ht : t ≠ []) (hh : t.head? ≠ some 32) : skipSp (s ++ t) ≠ [] := by
  induction s with
  | nil => rw [List.nil_append, skipSp_of_head hh]; exact ht
  | cons c s ih =>
    by_cases h : c = 32
    · rw [h, List.cons_append, skipSp_cons]; exact ih
    · rw [List.cons_append, skipSp_of_head (by simpa using h)]; simp

theorem scanGo_space (F : ScanF) (n : Nat) (f : List Byte) (c : Byte) (s : List Byte) (args : List Ptr) :
    scanGo F (n + 1) (32 :: f) (c :: s) args = scanGo F n f (skipSp (c :: s)) args := rfl

theorem scanGo_lit (F : ScanF) (n : Nat) (f : List Byte) {c : Byte} (s : List Byte) (args : List Ptr) (h : c ≠ 37) (h2 : c ≠ 32) :
    scanGo F (n + 1) (c :: f) (c :: s) args = scanGo F n f s args := by
  show (if c ≠ 37 then (if c = 32 then _ else if c = c then _ else _) else _) = _
  rw [if_pos h, if_neg h2, if_pos rfl]

theorem scanGo_sep (F : ScanF) {f t : List Byte} {args : List Ptr} {m : Nat} {R : Nat × List (Option Val)} (ht : t ≠ [])
    (hh : t.head? ≠ some 32) (key : ∀ n, m ≤ n → scanGo F n f t args = R) : ∀ (sep : List Byte) (n : Nat), 37 ∉ sep →
    m + sep.length ≤ n → scanGo F n (sep ++ f) (sep ++ t) args = R ∧ scanGo F n (sep ++ f) (skipSp (sep ++ t)) args = R := by
  intro sep
  induction sep with
  | nil =>
    intro n _ hn
    rw [List.nil_append, List.nil_append, skipSp_of_head hh]
    exact ⟨key n hn, key n hn⟩
  | cons c sep ih =>
    intro n hs hn
    rw [List.length_cons] at hn
    obtain ⟨n, rfl⟩ : ∃ k, n = k + 1 := ⟨n - 1, by omega⟩
    have hc : c ≠ 37 := fun e => hs (by simp [e])
    obtain ⟨i1, i2⟩ := ih n (fun hm => hs (by simp [hm])) (by omega)
    by_cases h32 : c = 32
    · subst h32
      constructor
      · rw [List.cons_append, List.cons_append, scanGo_space, skipSp_cons]
        exact i2
      · rw [List.cons_append, List.cons_append, skipSp_cons]
        have hne := skipSp_ne (s := sep) ht hh
        cases hk : skipSp (sep ++ t) with
        | nil => exact absurd hk hne
        | cons a b =>
          rw [scanGo_space, ← hk, skipSp_idem]
          exact i2
    · have e : skipSp (c :: sep ++ t) = c :: (sep ++ t) := skipSp_of_head (by simpa using h32)
      have one : scanGo F (n + 1) (c :: (sep ++ f)) (c :: (sep ++ t)) args = R := by
        rw [scanGo_lit F n _ _ _ hc h32]
        exact i1
      rw [e]
      exact ⟨one, one⟩

end Nature.Fmt
