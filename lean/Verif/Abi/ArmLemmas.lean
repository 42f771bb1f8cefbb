import Verif.Abi.Arm
import Verif.Abi.Finish
import Verif.Abi.SysvLemmas
/-
arm64: where each argument goes.
-/
namespace Nature.Abi.Arm
open Nature.TypeLayout

/-- An argument list the code handles: no floating point number after the eight vector registers are taken, no empty struct, a
struct on the stack only if it has 9 to 16 bytes, and no array of one or two bytes whose address is on the stack. -/
def fits1 (t : Ty) (pos nv : Nat) : Bool :=
  match t with
  | .scal s => !s.isF || decide (nv < 8)
  | .agg es => decide (sizeOf (.agg es) ≠ 0) &&
      (decide (pos < 32) || decide (pos % 2 = 1) || (decide (8 < sizeOf (.agg es)) && decide (sizeOf (.agg es) ≤ 16)))
  | .arr n e => decide (pos < 32) || (decide (sizeOf (.arr n e) ≠ 1) && decide (sizeOf (.arr n e) ≠ 2))

def fitsFrom : List Ty → (nx nv ns : Nat) → Bool
  | [], _, _, _ => true
  | t :: ts, nx, nv, ns =>
    let p := posOf t nx nv ns
    fits1 t p.1 nv && fitsFrom ts p.2.1 p.2.2.1 p.2.2.2

def fits (ts : List Ty) : Bool := fitsFrom ts 0 0 32

/-! ### Structs of floating point numbers -/

mutual
theorem hfaAux_fs : ∀ (t : Ty) (fs num n' fs' : Nat), hfaAux t fs num = some (n', fs') → (num = 0 ∧ fs = 0 ∨ fs = 4 ∨ fs = 8) →
    (n' = 0 ∧ fs' = 0 ∨ fs' = 4 ∨ fs' = 8)
  | .scal s, fs, num, n', fs', h, _ => by
    simp only [hfaAux] at h
    split at h
    · rename_i hs
      split at h
      · cases h
      · cases h
        right
        cases s <;> simp [Scal.isF, Scal.size] at hs ⊢
    · cases h
  | .agg es, fs, num, n', fs', h, hi => by
    simp only [hfaAux] at h
    split at h
    · cases h
    · rename_i a b hb
      have := hfaFields_fs es fs num num 0 a b hb hi
      split at h
      · cases h
      · cases h; exact this
  | .arr _ _, _, _, _, _, h, _ => by simp [hfaAux] at h
theorem hfaFields_fs : ∀ (es : Tys) (fs num num0 off n' fs' : Nat), hfaFields es fs num num0 off = some (n', fs') →
    (num = 0 ∧ fs = 0 ∨ fs = 4 ∨ fs = 8) → (n' = 0 ∧ fs' = 0 ∨ fs' = 4 ∨ fs' = 8)
  | .nil, fs, num, num0, off, n', fs', h, hi => by simp only [hfaFields] at h; cases h; exact hi
  | .cons t rest, fs, num, num0, off, n', fs', h, hi => by
    simp only [hfaFields] at h
    split at h
    · cases h
    · split at h
      · cases h
      · rename_i a b hb
        exact hfaFields_fs rest b a num0 _ n' fs' h (hfaAux_fs t fs num a b hb hi)
end

theorem hfa_spec (t : Ty) : hfa t = (0, 0) ∨ ((hfa t).2 = 4 ∨ (hfa t).2 = 8) ∧ 0 < (hfa t).1 ∧ (hfa t).1 ≤ 4 ∧
    (hfa t).1 * (hfa t).2 = sizeOf t := by
  unfold hfa
  by_cases ht : t.ind = true
  · rw [if_pos ht]
    split
    · rename_i n fs h
      split
      · rename_i hn
        right
        have := hfaAux_fs t 0 0 n fs h (.inl ⟨rfl, rfl⟩)
        refine ⟨by omega, hn.1, hn.2, ?_⟩
        cases t with
        | scal s => cases ht
        | arr n e => simp [hfaAux] at h
        | agg es =>
          simp only [hfaAux] at h
          split at h
          · cases h
          · split at h
            · cases h
            · rename_i h2
              cases h
              simp only [Decidable.not_not, Nat.sub_zero] at h2
              exact h2.symm
      · exact .inl rfl
    · exact .inl rfl
  · rw [if_neg ht]; exact .inl rfl

/-! ### Places -/

def gpParts (t : Ty) (r : Nat) : List (PL × Nat × Nat) := (.gp r, 0, 8) :: if 8 < sizeOf t then [(.gp (r + 1), 8, 8)] else []
def fpParts (t : Ty) (r : Nat) : List (PL × Nat × Nat) := (List.range (hfa t).1).map fun j => (.fp (r + j), j * (hfa t).2, (hfa t).2)

/-- How an argument with a position travels. -/
def placeOf (t : Ty) (pos : Nat) : Place :=
  if pos < 16 then
    if Ty.isAgg t = true ∧ pos % 2 = 0 then .parts (gpParts t (pos / 2))
    else if pos % 2 = 1 then .ref (.gp (pos / 2)) else .parts [(.gp (pos / 2), 0, sizeOf t)]
  else if pos < 32 then
    if Ty.isAgg t = true then .parts (fpParts t (pos / 2 - 8)) else .parts [(.fp (pos / 2 - 8), 0, sizeOf t)]
  else if pos % 2 = 1 then .ref (.stk (pos - pos % 2 - 32))
  else if t.ind then .whole (pos - pos % 2 - 32) else .parts [(.stk (pos - pos % 2 - 32), 0, sizeOf t)]

/-- The cases of `posOf`, for what fits. -/
inductive Case (t : Ty) (nx nv ns : Nat) : (pos nx' nv' ns' : Nat) → Prop
  | refReg : t.ind = true → nx < 8 → Case t nx nv ns (2 * nx + 1) (nx + 1) nv ns
  | refStk : t.ind = true → sizeOf t ≠ 1 → sizeOf t ≠ 2 → Case t nx nv ns (ns + 1) nx nv (ns + 8)
  | fpReg (s) : t = .scal s → s.isF = true → nv < 8 → Case t nx nv ns (16 + 2 * nv) nx (nv + 1) ns
  | gpReg (s) : t = .scal s → s.isF = false → nx < 8 → Case t nx nv ns (2 * nx) (nx + 1) nv ns
  | stk (s) : t = .scal s → s.isF = false → Case t nx nv ns ns 8 nv (ns + 8)
  | fps (es) : t = .agg es → 0 < (hfa t).1 → nv + (hfa t).1 ≤ 8 → Case t nx nv ns (16 + 2 * nv) nx (nv + (hfa t).1) ns
  | gps (es n) : t = .agg es → 0 < sizeOf t → sizeOf t ≤ 8 * n → n ≤ 2 → (8 < sizeOf t → n = 2) → nx + n ≤ 8 →
      Case t nx nv ns (2 * nx) (nx + n) nv ns
  | whole (es nx' nv') : t = .agg es → 8 < sizeOf t → sizeOf t ≤ 16 → nx ≤ nx' → nx' ≤ 8 → nv ≤ nv' → nv' ≤ 8 →
      Case t nx nv ns ns nx' nv' (ns + 16)

theorem alignUp_id {n a : Nat} (h : n % 8 = 0) (ha : PowAlign a) : alignUp n a = n := by
  rcases ha with rfl | rfl | rfl | rfl | rfl
  · rfl
  · have := alignUp_pow n 0; simp at this; omega
  · have := alignUp_pow n 1; simp at this; omega
  · have := alignUp_pow n 2; simp at this; omega
  · rw [alignUp_eight]; omega

theorem posOf_case {t : Ty} {nx nv ns : Nat} (hf : fits1 t (posOf t nx nv ns).1 nv = true) (hx : nx ≤ 8) (hv : nv ≤ 8) (hn : ns % 8 = 0)
    (hs : 32 ≤ ns) :
    Case t nx nv ns (posOf t nx nv ns).1 (posOf t nx nv ns).2.1 (posOf t nx nv ns).2.2.1 (posOf t nx nv ns).2.2.2 := by
  have h8 : alignUp ns 8 = ns := by rw [alignUp_eight]; omega
  cases t with
  | arr n e =>
    simp only [posOf] at hf ⊢
    by_cases h : nx < 8
    · simp only [h, if_true]
      exact .refReg rfl h
    · simp only [h, if_false, h8] at hf ⊢
      have h1 : ¬ ns + 1 < 32 := by omega
      simp only [fits1, h1, decide_false, Bool.false_or, Bool.and_eq_true, decide_eq_true_eq] at hf
      exact .refStk rfl hf.1 hf.2
  | scal s =>
    simp only [posOf] at hf ⊢
    by_cases h : s.isF = true
    · simp only [h, if_true] at hf ⊢
      simp only [fits1, h, Bool.not_true, Bool.false_or, decide_eq_true_eq] at hf
      exact .fpReg s rfl h hf
    · simp only [h, if_false, Bool.false_eq_true] at hf ⊢
      have h := Bool.eq_false_iff.2 h
      by_cases hx8 : nx < 8
      · simp only [hx8, if_true]
        exact .gpReg s rfl h hx8
      · simp only [hx8, if_false, h8, alignUp_id hn (scal_pow s)]
        have e : (if s.size < 8 then 8 else s.size) = 8 := by cases s <;> rfl
        rw [e]
        exact .stk s rfl h
  | agg es =>
    simp only [posOf] at hf ⊢
    have hsz : sizeOf (.agg es) ≠ 0 := by
      simp only [fits1, Bool.and_eq_true, decide_eq_true_eq] at hf; exact hf.1
    have hst : ∀ p, p % 2 = 0 → 32 ≤ p → fits1 (.agg es) p nv = true → 8 < sizeOf (.agg es) ∧ sizeOf (.agg es) ≤ 16 := by
      intro p h1 h2 h
      have h3 : ¬ p < 32 := by omega
      have h4 : ¬ p % 2 = 1 := by omega
      simp only [fits1, h3, h4, decide_false, Bool.false_or, Bool.and_eq_true, decide_eq_true_eq] at h
      exact h.2
    split
    · rename_i h
      rw [if_pos h] at hf
      by_cases h : nx < 8
      · simp only [h, if_true]
        exact .refReg rfl h
      · simp only [h, if_false, h8] at hf ⊢
        exact .refStk rfl (by omega) (by omega)
    · rename_i h
      rw [if_neg h] at hf
      split
      · rename_i h1
        exact .fps es rfl (by omega) h1.2
      · rename_i h1
        rw [if_neg h1] at hf
        split
        · rename_i h2
          rw [if_pos h2] at hf
          have := hst ns (by omega) hs hf
          have e : alignUp (sizeOf (.agg es)) 8 = 16 := by rw [alignUp_eight]; omega
          rw [e]
          exact .whole es nx 8 rfl this.1 this.2 (Nat.le_refl _) hx hv (Nat.le_refl _)
        · rename_i h2
          rw [if_neg h2] at hf
          have hle : sizeOf (.agg es) ≤ 16 := by omega
          split
          · rename_i h3
            rw [alignUp_eight] at h3 ⊢
            refine .gps es _ rfl (by omega) (by omega) (by omega) (by omega) (by omega)
          · rename_i h3
            rw [if_neg h3] at hf
            simp only [h8, alignUp_id hn (align_pow (.agg es))] at hf ⊢
            have := hst ns (by omega) hs hf
            have e : alignUp (sizeOf (.agg es)) 8 = 16 := by rw [alignUp_eight]; omega
            rw [e]
            exact .whole es 8 nv rfl this.1 this.2 hx (Nat.le_refl _) (Nat.le_refl _) hv

theorem Case.mono {t : Ty} {nx nv ns pos nx' nv' ns' : Nat} (h : Case t nx nv ns pos nx' nv' ns') (hx : nx ≤ 8) (hv : nv ≤ 8) (hn : ns % 8 = 0) :
    nx ≤ nx' ∧ nx' ≤ 8 ∧ nv ≤ nv' ∧ nv' ≤ 8 ∧ ns ≤ ns' ∧ ns' % 8 = 0 := by
  cases h <;> refine ⟨?_, ?_, ?_, ?_, ?_, ?_⟩ <;> omega

end Nature.Abi.Arm
