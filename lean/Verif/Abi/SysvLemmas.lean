import Verif.Abi.Sysv
import Verif.Abi.Finish
/-
Passing arguments with the System V convention: the two sides meet.
-/
namespace Nature.Abi
open Nature.TypeLayout (alignUp PowAlign Aligned le_alignUp alignUp_aligned alignUp_add alignUp_eight alignUp_least aligned_mono
  powAlign_max alignUp_self pow8)

theorem scal_pow (s : Scal) : PowAlign s.size := by cases s <;> simp [PowAlign, Scal.size]

mutual
theorem align_pow : (t : Ty) → PowAlign (alignOf t)
  | .scal s => scal_pow s
  | .agg es => by rw [alignOf]; exact max_pow es
  | .arr _ e => by rw [alignOf]; exact align_pow e
theorem max_pow : (es : Tys) → PowAlign (maxAlign es)
  | .nil => .inl rfl
  | .cons t rest => by rw [maxAlign]; exact powAlign_max (align_pow t) (max_pow rest)
end

theorem endFrom_ge : (es : Tys) → (off : Nat) → off ≤ endFrom es off
  | .nil, _ => Nat.le_refl _
  | .cons t rest, off => by
    rw [endFrom]
    have := endFrom_ge rest (alignUp off (alignOf t) + sizeOf t)
    have := le_alignUp (n := off) (align_pow t)
    omega

theorem endFrom_add : (es : Tys) → (b off : Nat) → Aligned b (maxAlign es) → endFrom es (b + off) = b + endFrom es off
  | .nil, _, _, _ => rfl
  | .cons t rest, b, off, h => by
    rw [endFrom, endFrom]
    rw [maxAlign] at h
    rw [alignUp_add (align_pow t) (aligned_mono (align_pow t) (powAlign_max (align_pow t) (max_pow rest)) (Nat.le_max_left ..) h),
      Nat.add_assoc]
    exact endFrom_add rest b _ (aligned_mono (max_pow rest) (powAlign_max (align_pow t) (max_pow rest)) (Nat.le_max_right ..) h)

/-- Rounding up does not cross a word boundary that was not crossed. -/
theorem alignUp_cross {n a b : Nat} (ha : PowAlign a) (h8 : Aligned b a) (h : b + n ≤ 8) : b + alignUp n a ≤ 8 := by
  rw [← alignUp_add ha h8]
  by_cases h0 : a = 0
  · subst h0; exact h
  · refine alignUp_least ha h0 h ?_
    rcases ha with rfl | rfl | rfl | rfl | rfl <;> simp_all

namespace Sysv

/-- What is known of the classes after looking at `[off, fin)`. -/
structure CInv (lo hi lo' hi' : Cls) (off fin : Nat) : Prop where
  klo : lo ≠ .no → lo' ≠ .no
  khi : hi ≠ .no → hi' ≠ .no
  nlo : off = 0 → 0 < fin → lo' ≠ .no
  nhi : 8 < fin → off < fin → hi' ≠ .no
  hic : hi' ≠ .no → hi ≠ .no ∨ 8 < fin
  mlo : lo ≠ .memory → lo' ≠ .memory
  mhi : hi ≠ .memory → hi' ≠ .memory

theorem merge_ne_no {a b : Cls} (h : b ≠ .no) : merge a b ≠ .no := by
  cases a <;> cases b <;> simp_all [merge]
theorem merge_ne_mem {a b : Cls} (h : b ≠ .memory) (h2 : a ≠ .memory) : merge a b ≠ .memory := by
  cases a <;> cases b <;> simp_all [merge]

theorem size_agg (es : Tys) : sizeOf (.agg es) = alignUp (endFrom es 0) (maxAlign es) := by rw [sizeOf]

mutual
theorem classify_zero : (t : Ty) → (lo hi : Cls) → (off : Nat) → (r : Cls × Cls) → classify t lo hi off = some r → sizeOf t = 0 →
    alignOf t = 0
  | .arr n e, lo, hi, off, r, h, _ => by unfold classify at h; split at h <;> cases h
  | .scal s, _, _, _, _, _, h => by rw [sizeOf] at h; cases s <;> cases h
  | .agg es, lo, hi, off, r, h, hz => by
    unfold classify at h
    split at h
    · cases h
    · dsimp only at h
      rw [alignOf]
      rw [sizeOf] at hz
      have := le_alignUp (n := endFrom es 0) (max_pow es)
      exact classifyAll_zero es lo hi _ r h 0 (by omega)
theorem classifyAll_zero : (es : Tys) → (lo hi : Cls) → (off : Nat) → (r : Cls × Cls) → classifyAll es lo hi off = some r →
    (x : Nat) → endFrom es x = x → maxAlign es = 0
  | .nil, _, _, _, _, _, _, _ => rfl
  | .cons t rest, lo, hi, off, r, h, x, hx => by
    unfold classifyAll at h
    dsimp only at h
    split at h
    · cases h
    · rename_i lo1 hi1 hc
      rw [endFrom] at hx
      have g := endFrom_ge rest (alignUp x (alignOf t) + sizeOf t)
      have a1 := le_alignUp (n := x) (align_pow t)
      have z1 := classify_zero t lo hi _ _ hc (by omega)
      have e : alignUp x (alignOf t) + sizeOf t = x := by omega
      rw [e] at hx
      have z2 := classifyAll_zero rest _ _ _ _ h x hx
      rw [maxAlign, z1, z2]; rfl
end

mutual
theorem classify_inv : (t : Ty) → (lo hi lo' hi' : Cls) → (off : Nat) → Aligned off (alignOf t) →
    classify t lo hi off = some (lo', hi') → CInv lo hi lo' hi' off (off + sizeOf t)
  | .arr n e, lo, hi, lo', hi', off, _, h => by
    unfold classify at h; split at h <;> cases h
  | .scal s, lo, hi, lo', hi', off, ha, h => by
    unfold classify at h
    have hs : sizeOf (.scal s) = s.size := by rw [sizeOf]
    rw [hs] at *
    have hk : (if s.isF then Cls.sse else .integer) ≠ .no := by split <;> simp
    have hkm : (if s.isF then Cls.sse else .integer) ≠ .memory := by split <;> simp
    have hsz : (s.size = 1 ∨ s.size = 2 ∨ s.size = 4 ∨ s.size = 8) := by cases s <;> simp [Scal.size]
    rw [alignOf] at ha
    have ha' : off % s.size = 0 := by rcases ha with h | h <;> omega
    split at h
    · cases h
    · dsimp only at h
      split at h
      · rename_i h8
        simp only [Option.some.injEq, Prod.mk.injEq] at h
        obtain ⟨rfl, rfl⟩ := h
        refine ⟨fun _ => merge_ne_no hk, fun h => h, fun _ _ => merge_ne_no hk, ?_, fun h => .inl h, merge_ne_mem hkm, fun h => h⟩
        intro h; rcases hsz with e | e | e | e <;> rw [e] at h ha' <;> omega
      · rename_i h8
        simp only [Option.some.injEq, Prod.mk.injEq] at h
        obtain ⟨rfl, rfl⟩ := h
        refine ⟨fun h => h, fun _ => merge_ne_no hk, fun h => by omega, fun _ _ => merge_ne_no hk, fun _ => .inr (by omega), fun h => h,
          merge_ne_mem hkm⟩
  | .agg es, lo, hi, lo', hi', off, ha, h => by
    unfold classify at h
    split at h
    · cases h
    · dsimp only at h
      rw [alignOf] at ha
      rw [alignUp_self (max_pow es) ha] at h
      have inv := classifyAll_inv es lo hi lo' hi' off h
      have e1 : endFrom es off = off + endFrom es 0 := by have := endFrom_add es off 0 ha; simpa using this
      have e2 := le_alignUp (n := endFrom es 0) (max_pow es)
      rw [size_agg]
      rw [e1] at inv
      have hz : endFrom es 0 = 0 → alignUp (endFrom es 0) (maxAlign es) = 0 := by
        intro h; rw [h]
        rcases max_pow es with h | h | h | h | h <;> rw [h] <;> rfl
      refine ⟨inv.klo, inv.khi, ?_, ?_, ?_, inv.mlo, inv.mhi⟩
      · intro h1 h2
        refine inv.nlo h1 ?_
        by_cases h3 : endFrom es 0 = 0
        · have := hz h3; omega
        · omega
      · intro h1 h2
        refine inv.nhi ?_ (by omega)
        by_cases h3 : off + endFrom es 0 ≤ 8
        · have := alignUp_cross (max_pow es) ha h3; omega
        · omega
      · intro h1
        rcases inv.hic h1 with h | h
        · exact .inl h
        · exact .inr (by omega)
theorem classifyAll_inv : (es : Tys) → (lo hi lo' hi' : Cls) → (off : Nat) →
    classifyAll es lo hi off = some (lo', hi') → CInv lo hi lo' hi' off (endFrom es off)
  | .nil, lo, hi, lo', hi', off, h => by
    unfold classifyAll at h
    simp only [Option.some.injEq, Prod.mk.injEq] at h
    obtain ⟨rfl, rfl⟩ := h
    rw [endFrom]
    exact ⟨fun h => h, fun h => h, fun _ h => by omega, fun _ h => by omega, fun h => .inl h, fun h => h, fun h => h⟩
  | .cons t rest, lo, hi, lo', hi', off, h => by
    unfold classifyAll at h
    dsimp only at h
    split at h
    · cases h
    · rename_i lo1 hi1 hc
      have i1 := classify_inv t lo hi lo1 hi1 _ (alignUp_aligned (align_pow t)) hc
      have i2 := classifyAll_inv rest lo1 hi1 lo' hi' _ h
      rw [endFrom]
      have g := endFrom_ge rest (alignUp off (alignOf t) + sizeOf t)
      have a1 := le_alignUp (n := off) (align_pow t)
      refine ⟨fun h => i2.klo (i1.klo h), fun h => i2.khi (i1.khi h), ?_, ?_, ?_, fun h => i2.mlo (i1.mlo h), fun h => i2.mhi (i1.mhi h)⟩
      · intro h1 h2
        subst h1
        have e0 : alignUp 0 (alignOf t) = 0 := by
          rcases align_pow t with h | h | h | h | h <;> rw [h] <;> rfl
        rw [e0] at i1 i2 h2
        by_cases hz : sizeOf t = 0
        · exact i2.nlo (by omega) h2
        · exact i2.klo (i1.nlo rfl (by omega))
      · intro h1 h2
        by_cases h3 : alignUp off (alignOf t) + sizeOf t < endFrom rest (alignUp off (alignOf t) + sizeOf t)
        · exact i2.nhi h1 h3
        · refine i2.khi (i1.nhi (by omega) ?_)
          by_cases hz : sizeOf t = 0
          · have := classify_zero t lo hi _ _ hc hz
            rw [this] at h1 h2 h3 g
            have e : alignUp off 0 = off := rfl
            omega
          · omega
      · intro h1
        rcases i2.hic h1 with h | h
        · rcases i1.hic h with h | h
          · exact .inl h
          · exact .inr (by omega)
        · exact .inr h
end

mutual
theorem zero_cls1 : (t : Ty) → alignOf t = 0 → ∀ l h o, classify t l h o = some (l, h) ∨ classify t l h o = none
  | .arr n e, _, l, h, o => by right; unfold classify; split <;> rfl
  | .scal s, hz, _, _, _ => by rw [alignOf] at hz; cases s <;> cases hz
  | .agg es, hz, l, h, o => by
    rw [alignOf] at hz
    unfold classify
    split
    · exact .inr rfl
    · exact zero_cls es hz l h _
theorem zero_cls : (es : Tys) → maxAlign es = 0 → ∀ l h o, classifyAll es l h o = some (l, h) ∨ classifyAll es l h o = none
  | .nil, _, _, _, _ => .inl rfl
  | .cons t rest, hz, l, h, o => by
    rw [maxAlign] at hz
    unfold classifyAll
    dsimp only
    rcases zero_cls1 t (by omega) l h (alignUp o (alignOf t)) with e | e
    · rw [e]; exact zero_cls rest (by omega) l h _
    · rw [e]; exact .inr rfl
end

/-- What the classes of a value say about its size. -/
theorem cls_spec {t : Ty} {lo hi : Cls} (h : cls t = some (lo, hi)) :
    (0 < sizeOf t → lo ≠ .no) ∧ (hi ≠ .no ↔ 8 < sizeOf t) ∧ lo ≠ .memory ∧ hi ≠ .memory ∧ sizeOf t ≤ 16 := by
  have i := classify_inv t .no .no lo hi 0 (by right; simp) h
  have h16 : sizeOf t ≤ 16 := by
    unfold cls classify at h; split at h
    · cases h
    · omega
  refine ⟨fun h => i.nlo rfl (by omega), ⟨fun h => ?_, fun h => i.nhi (by omega) (by omega)⟩, i.mlo (by simp), i.mhi (by simp), h16⟩
  rcases i.hic h with h | h
  · exact absurd rfl h
  · omega

theorem cls_scal (s : Scal) : cls (.scal s) = some (if s.isF then .sse else .integer, .no) := by
  cases s <;> rfl

theorem cls_arr (n : Nat) (e : Ty) : cls (.arr n e) = none := by
  unfold cls classify; split <;> rfl

/-- The register of class `c` after `int` and `sse` registers. -/
def regPL (c : Cls) (int sse : Nat) : PL :=
  if c = .integer then .gp (intRegs.getD int 0) else .fp (sseRegs.getD sse 0)

def nextI (c : Cls) (int : Nat) : Nat := if c = .integer then int + 1 else int
def nextS (c : Cls) (sse : Nat) : Nat := if c = .integer then sse else sse + 1

theorem regPL_opdIn (c : Cls) (int sse : Nat) : (regPL c int sse).opdIn = (regPL c int sse).opd := by
  unfold regPL; split <;> rfl
theorem regPL_notStk (c : Cls) (int sse : Nat) : (regPL c int sse).isStk = false := by
  unfold regPL; split <;> rfl

theorem takeReg_ok {c : Cls} {int sse : Nat} (h1 : c = .integer → int < 6) (h2 : c ≠ .integer → c = .sse ∧ sse < 8) :
    takeReg c int sse = some ((regPL c int sse).opd, nextI c int, nextS c sse) := by
  by_cases hc : c = .integer
  · subst hc
    have := h1 rfl
    have e : intRegs[int]? = some (intRegs.getD int 0) := by
      rcases (by omega : int = 0 ∨ int = 1 ∨ int = 2 ∨ int = 3 ∨ int = 4 ∨ int = 5) with h | h | h | h | h | h <;> subst h <;> rfl
    show (intRegs[int]?).map _ = _
    rw [e]; rfl
  · obtain ⟨rfl, h8⟩ := h2 hc
    have e : sseRegs[sse]? = some (sseRegs.getD sse 0) := by
      rcases (by omega : sse = 0 ∨ sse = 1 ∨ sse = 2 ∨ sse = 3 ∨ sse = 4 ∨ sse = 5 ∨ sse = 6 ∨ sse = 7)
        with h | h | h | h | h | h | h | h <;> subst h <;> rfl
    show (sseRegs[sse]?).map _ = _
    rw [e]; rfl

/-- The parts of a value in registers. -/
def regParts (t : Ty) (lo hi : Cls) (int sse : Nat) : List (PL × Nat × Nat) :=
  match t with
  | .scal s => [(regPL lo int sse, 0, s.size)]
  | _ => (regPL lo int sse, 0, 8) :: if two hi then [(regPL hi (nextI lo int) (nextS lo sse), 8, 8)] else []

/-- How the arguments travel. -/
def mkItems : (i : Nat) → List Ty → (sse int off so : Nat) → List Item
  | _, [], _, _, _, _ => []
  | i, t :: ts, sse, int, off, so =>
    match callerPick t sse int with
    | none => { i := i, t := t, pl := if t.ind then .whole off else .parts [(.stk off, 0, sizeOf t)] } ::
        mkItems (i + 1) ts sse int (off + alignUp (sizeOf t) 8) so
    | some (sse', int') =>
      match cls t with
      | none => []
      | some (lo, hi) => { i := i, t := t, pl := .parts (regParts t lo hi int sse), lo := allocOff so t, lsz := alignUp (sizeOf t) 8 } ::
          mkItems (i + 1) ts sse' int' off (if t.ind then allocOff so t else so)

/-- A value that travels in registers. -/
structure Picked (t : Ty) (lo hi : Cls) (sse int sse' int' : Nat) : Prop where
  c : cls t = some (lo, hi)
  lo1 : lo = .integer → int < 6
  lo2 : lo ≠ .integer → lo = .sse ∧ sse < 8
  hi1 : two hi = true → hi = .integer → nextI lo int < 6
  hi2 : two hi = true → hi ≠ .integer → hi = .sse ∧ nextS lo sse < 8
  eI : int' = if two hi then nextI hi (nextI lo int) else nextI lo int
  eS : sse' = if two hi then nextS hi (nextS lo sse) else nextS lo sse

theorem picked {t : Ty} {sse int sse' int' : Nat} (h : callerPick t sse int = some (sse', int')) :
    ∃ lo hi, Picked t lo hi sse int sse' int' := by
  unfold callerPick at h
  cases hc : cls t with
  | none => rw [hc] at h; cases h
  | some p =>
    obtain ⟨lo, hi⟩ := p
    rw [hc] at h
    obtain ⟨c1, c2, c3, c4, c5⟩ := cls_spec hc
    refine ⟨lo, hi, ?_⟩
    dsimp only at h
    split at h
    · rename_i h2
      split at h
      · rename_i h3
        obtain ⟨rfl, _⟩ := h3
        simp only [Option.some.injEq, Prod.mk.injEq] at h
        obtain ⟨rfl, rfl⟩ := h
        exact ⟨hc, by simp, fun _ => ⟨rfl, by omega⟩, by simp [h2], by simp [h2], by simp [h2, nextI], by simp [h2, nextS]⟩
      · split at h
        · rename_i h3
          obtain ⟨rfl, _⟩ := h3
          simp only [Option.some.injEq, Prod.mk.injEq] at h
          obtain ⟨rfl, rfl⟩ := h
          exact ⟨hc, fun _ => by omega, by simp, by simp [h2], by simp [h2], by simp [h2, nextI], by simp [h2, nextS]⟩
        · cases h
    · rename_i h2
      have h2' : two hi = true := by simpa using h2
      have hn : hi ≠ .no := by simpa [two] using h2'
      have hl : lo ≠ .no := c1 (by have := c2.1 hn; omega)
      split at h
      · rename_i he
        subst he
        split at h
        · rename_i h3
          obtain ⟨rfl, _⟩ := h3
          simp only [Option.some.injEq, Prod.mk.injEq] at h
          obtain ⟨rfl, rfl⟩ := h
          exact ⟨hc, by simp, fun _ => ⟨rfl, by omega⟩, by simp, fun _ _ => ⟨rfl, by simp [nextS]; omega⟩, by simp [h2', nextI],
            by simp [h2', nextS]⟩
        · split at h
          · rename_i h3
            obtain ⟨rfl, _⟩ := h3
            simp only [Option.some.injEq, Prod.mk.injEq] at h
            obtain ⟨rfl, rfl⟩ := h
            exact ⟨hc, fun _ => by omega, by simp, fun _ _ => by simp [nextI]; omega, by simp, by simp [h2', nextI],
              by simp [h2', nextS]⟩
          · cases h
      · rename_i he
        split at h
        · rename_i h3
          simp only [Option.some.injEq, Prod.mk.injEq] at h
          obtain ⟨rfl, rfl⟩ := h
          cases lo with
          | no => exact absurd rfl hl
          | memory => exact absurd rfl c3
          | integer =>
            cases hi with
            | no => exact absurd rfl hn
            | memory => exact absurd rfl c4
            | integer => exact absurd rfl he
            | sse => exact ⟨hc, fun _ => by omega, by simp, by simp, fun _ _ => ⟨rfl, by simp [nextS]; omega⟩, by simp [h2', nextI],
                by simp [h2', nextS]⟩
          | sse =>
            cases hi with
            | no => exact absurd rfl hn
            | memory => exact absurd rfl c4
            | sse => exact absurd rfl he
            | integer => exact ⟨hc, by simp, fun _ => ⟨rfl, by omega⟩, fun _ _ => by simp [nextI]; omega, by simp, by simp [h2', nextI],
                by simp [h2', nextS]⟩
        · cases h

theorem mkItems_none {i : Nat} {t : Ty} {ts : List Ty} {sse int off so : Nat} (h : callerPick t sse int = none) :
    mkItems i (t :: ts) sse int off so =
      { i := i, t := t, pl := if t.ind then .whole off else .parts [(.stk off, 0, sizeOf t)] } ::
        mkItems (i + 1) ts sse int (off + alignUp (sizeOf t) 8) so := by
  rw [mkItems, h]

theorem mkItems_some {i : Nat} {t : Ty} {ts : List Ty} {sse int off so sse' int' : Nat} {lo hi : Cls}
    (h : callerPick t sse int = some (sse', int')) (hp : Picked t lo hi sse int sse' int') :
    mkItems i (t :: ts) sse int off so =
      { i := i, t := t, pl := .parts (regParts t lo hi int sse), lo := allocOff so t, lsz := alignUp (sizeOf t) 8 } ::
          mkItems (i + 1) ts sse' int' off (if t.ind then allocOff so t else so) := by
  rw [mkItems, h]; simp only [hp.c]

theorem calleePick_eq : calleePick = callerPick := rfl

/-! ### What is emitted -/

theorem regParts_units_stk {i : Nat} {t : Ty} {lo hi : Cls} {int sse : Nat} :
    ((regParts t lo hi int sse).map fun p => U.part i t p.1 p.2.1 p.2.2 .plain).filter U.isStk = [] := by
  unfold regParts
  split
  · simp [U.isStk, regPL_notStk]
  · split <;> simp [U.isStk, regPL_notStk]

theorem regParts_units_reg {i : Nat} {t : Ty} {lo hi : Cls} {int sse : Nat} :
    ((regParts t lo hi int sse).map fun p => U.part i t p.1 p.2.1 p.2.2 .plain).filter (fun u => !u.isStk) =
      (regParts t lo hi int sse).map fun p => U.part i t p.1 p.2.1 p.2.2 .plain := by
  unfold regParts
  split
  · simp [U.isStk, regPL_notStk]
  · split <;> simp [U.isStk, regPL_notStk]

theorem callerStk_eq : ∀ (ts : List Ty) (i sse int off so : Nat),
    callerStk i ts (callerMark ts sse int off).1 off = (((mkItems i ts sse int off so).flatMap Item.units).filter U.isStk).flatMap U.ops
  | [], i, sse, int, off, so => by simp [callerStk, mkItems]
  | t :: ts, i, sse, int, off, so => by
    cases h : callerPick t sse int with
    | none =>
      rw [mkItems_none h, List.flatMap_cons, List.filter_append, List.flatMap_append,
        ← callerStk_eq ts (i + 1) sse int (off + alignUp (sizeOf t) 8) so]
      simp only [callerMark, h, callerStk, Bool.true_eq_false, if_false]
      congr 1
      cases hi : t.ind with
      | true =>
        simp only [Item.units, if_true]
        rw [List.filter_cons_of_pos (by rfl)]
        simp [U.ops]
      | false =>
        simp only [Item.units, Bool.false_eq_true, if_false, List.map_cons, List.map_nil]
        rw [List.filter_cons_of_pos (by rfl)]
        simp [U.ops, hi, PL.opd]
    | some p =>
      obtain ⟨sse', int'⟩ := p
      obtain ⟨lo, hi, hp⟩ := picked h
      rw [mkItems_some h hp, List.flatMap_cons, List.filter_append, List.flatMap_append,
        ← callerStk_eq ts (i + 1) sse' int' off (if t.ind then allocOff so t else so)]
      simp only [callerMark, h, callerStk, if_true]
      simp only [Item.units, regParts_units_stk, List.flatMap_nil, List.nil_append]

theorem scal_not_two {s : Scal} {lo hi : Cls} (h : cls (.scal s) = some (lo, hi)) : two hi = false := by
  rw [cls_scal] at h
  simp only [Option.some.injEq, Prod.mk.injEq] at h
  rw [← h.2]; rfl

theorem callerReg_eq : ∀ (ts : List Ty) (i sse int off so : Nat),
    callerReg i ts (callerMark ts sse int off).1 int sse =
      some ((((mkItems i ts sse int off so).flatMap Item.units).filter fun u => !u.isStk).flatMap U.ops)
  | [], i, sse, int, off, so => by simp [callerReg, mkItems]
  | t :: ts, i, sse, int, off, so => by
    cases h : callerPick t sse int with
    | none =>
      rw [mkItems_none h, List.flatMap_cons, List.filter_append, List.flatMap_append]
      have ih := callerReg_eq ts (i + 1) sse int (off + alignUp (sizeOf t) 8) so
      simp only [callerMark, h, callerReg, if_true]
      rw [ih]
      cases hi : t.ind with
      | true => simp [Item.units, U.isStk]
      | false => simp [Item.units, U.isStk, PL.isStk]
    | some p =>
      obtain ⟨sse', int'⟩ := p
      obtain ⟨lo, hi, hp⟩ := picked h
      rw [mkItems_some h hp, List.flatMap_cons, List.filter_append, List.flatMap_append]
      have ih := callerReg_eq ts (i + 1) sse' int' off (if t.ind then allocOff so t else so)
      simp only [callerMark, h, callerReg, Bool.false_eq_true, if_false, hp.c]
      simp only [Item.units, regParts_units_reg]
      have t1 := takeReg_ok hp.lo1 hp.lo2
      cases t with
      | arr n e => exact absurd hp.c (by rw [cls_arr]; simp)
      | scal s =>
        have h2 := scal_not_two hp.c
        have eI := hp.eI; have eS := hp.eS
        simp only [h2, Bool.false_eq_true, if_false] at eI eS
        subst eI eS
        simp only [h2, Bool.false_eq_true, if_false, t1, Option.bind_eq_bind, Option.bind_some, ih]
        simp [regParts, U.ops, Ty.ind]
      | agg es =>
        have eI := hp.eI; have eS := hp.eS
        simp only [t1, Option.bind_eq_bind, Option.bind_some]
        cases h2 : two hi with
        | false =>
          simp only [h2, Bool.false_eq_true, if_false] at eI eS ⊢
          subst eI eS
          simp only [ih, Option.bind_some]
          simp [regParts, U.ops, Ty.ind, h2]
        | true =>
          simp only [h2, if_true] at eI eS ⊢
          subst eI eS
          simp only [takeReg_ok (hp.hi1 h2) (hp.hi2 h2), ih, Option.bind_some]
          simp [regParts, U.ops, Ty.ind, h2]

/-- `c->stack_offset` after the parameters. -/
def finalSo : List Ty → (sse int so : Nat) → Nat
  | [], _, _, so => so
  | t :: ts, sse, int, so =>
    match callerPick t sse int with
    | none => finalSo ts sse int so
    | some (sse', int') => finalSo ts sse' int' (if t.ind then allocOff so t else so)

theorem calleeTake_eq : ∀ (ts : List Ty) (i sse int off so : Nat),
    calleeTake i ts (calleeMark ts sse int) int sse (16 + off) so =
      some ((mkItems i ts sse int off so).flatMap Item.inOps, finalSo ts sse int so)
  | [], i, sse, int, off, so => by simp [calleeTake, mkItems, finalSo]
  | t :: ts, i, sse, int, off, so => by
    cases h : callerPick t sse int with
    | none =>
      rw [mkItems_none h, List.flatMap_cons]
      have ih := calleeTake_eq ts (i + 1) sse int (off + alignUp (sizeOf t) 8) so
      rw [← Nat.add_assoc] at ih
      simp only [calleeMark, calleePick_eq, h, calleeTake, if_true, ih, Option.bind_eq_bind, Option.bind_some, finalSo]
      cases hi : t.ind with
      | true => simp [Item.inOps]
      | false => simp [Item.inOps, hi, PL.opdIn]
    | some p =>
      obtain ⟨sse', int'⟩ := p
      obtain ⟨lo, hi, hp⟩ := picked h
      rw [mkItems_some h hp, List.flatMap_cons]
      have ih := calleeTake_eq ts (i + 1) sse' int' off (if t.ind then allocOff so t else so)
      simp only [calleeMark, calleePick_eq, h, calleeTake, Bool.false_eq_true, if_false, hp.c, finalSo]
      simp only [Item.inOps]
      have t1 := takeReg_ok hp.lo1 hp.lo2
      cases t with
      | arr n e => exact absurd hp.c (by rw [cls_arr]; simp)
      | scal s =>
        have h2 := scal_not_two hp.c
        have eI := hp.eI; have eS := hp.eS
        simp only [h2, Bool.false_eq_true, if_false] at eI eS
        subst eI eS
        simp only [Ty.ind, Bool.false_eq_true, if_false] at ih
        simp only [h2, Bool.false_eq_true, if_false, t1, Option.bind_eq_bind, Option.bind_some, ih, Ty.ind]
        simp [regParts, regPL_opdIn]
      | agg es =>
        have eI := hp.eI; have eS := hp.eS
        simp only [Ty.ind, if_true] at ih
        simp only [t1, Option.bind_eq_bind, Option.bind_some, Ty.ind, if_true]
        cases h2 : two hi with
        | false =>
          simp only [h2, Bool.false_eq_true, if_false] at eI eS ⊢
          subst eI eS
          simp only [ih, Option.bind_some]
          simp [regParts, h2, regPL_opdIn, allocOp]
        | true =>
          simp only [h2, if_true] at eI eS ⊢
          subst eI eS
          simp only [takeReg_ok (hp.hi1 h2) (hp.hi2 h2), ih, Option.bind_some]
          simp [regParts, h2, regPL_opdIn, allocOp]

/-! ### Apart -/

theorem mkItems_ids : ∀ (ts : List Ty) (i sse int off so : Nat), (∀ it ∈ mkItems i ts sse int off so, i ≤ it.i) ∧
    (mkItems i ts sse int off so).Pairwise fun a b => a.i ≠ b.i
  | [], i, sse, int, off, so => by simp [mkItems]
  | t :: ts, i, sse, int, off, so => by
    cases h : callerPick t sse int with
    | none =>
      rw [mkItems_none h]
      have ih := mkItems_ids ts (i + 1) sse int (off + alignUp (sizeOf t) 8) so
      refine ⟨fun it hit => ?_, List.pairwise_cons.2 ⟨fun it hit => ?_, ih.2⟩⟩
      · rcases List.mem_cons.1 hit with rfl | h
        · exact Nat.le_refl _
        · have := ih.1 it h; omega
      · have := ih.1 it hit; show i ≠ _; omega
    | some p =>
      obtain ⟨sse', int'⟩ := p
      obtain ⟨lo, hi, hp⟩ := picked h
      rw [mkItems_some h hp]
      have ih := mkItems_ids ts (i + 1) sse' int' off (if t.ind then allocOff so t else so)
      refine ⟨fun it hit => ?_, List.pairwise_cons.2 ⟨fun it hit => ?_, ih.2⟩⟩
      · rcases List.mem_cons.1 hit with rfl | h
        · exact Nat.le_refl _
        · have := ih.1 it h; omega
      · have := ih.1 it hit; show i ≠ _; omega

theorem mkItems_lists : ∀ (ts : List Ty) (i sse int off so j : Nat) (t : Ty),
    ts[j]? = some t ↔ ∃ it ∈ mkItems i ts sse int off so, it.i = i + j ∧ it.t = t
  | [], i, sse, int, off, so, j, t => by simp [mkItems]
  | u :: ts, i, sse, int, off, so, j, t => by
    have key : ∀ (x : Item) (xs : List Item), x.i = i → x.t = u → (∀ it ∈ xs, i + 1 ≤ it.i) →
        (∀ j t, ts[j]? = some t ↔ ∃ it ∈ xs, it.i = i + 1 + j ∧ it.t = t) →
        ((u :: ts)[j]? = some t ↔ ∃ it ∈ x :: xs, it.i = i + j ∧ it.t = t) := by
      intro x xs hx hu hle ih
      cases j with
      | zero =>
        simp only [List.getElem?_cons_zero, Option.some.injEq]
        constructor
        · rintro rfl; exact ⟨x, List.mem_cons_self .., by omega, hu⟩
        · rintro ⟨it, hit, h1, rfl⟩
          rcases List.mem_cons.1 hit with rfl | h
          · exact hu.symm
          · have := hle it h; omega
      | succ j =>
        simp only [List.getElem?_cons_succ]
        rw [ih]
        constructor
        · rintro ⟨it, hit, h1, h2⟩; exact ⟨it, List.mem_cons_of_mem _ hit, by omega, h2⟩
        · rintro ⟨it, hit, h1, h2⟩
          rcases List.mem_cons.1 hit with rfl | h
          · omega
          · exact ⟨it, h, by omega, h2⟩
    cases h : callerPick u sse int with
    | none =>
      rw [mkItems_none h]
      exact key _ _ rfl rfl (mkItems_ids ..).1 (fun j t => mkItems_lists ts _ _ _ _ _ j t)
    | some p =>
      obtain ⟨sse', int'⟩ := p
      obtain ⟨lo, hi, hp⟩ := picked h
      rw [mkItems_some h hp]
      exact key _ _ rfl rfl (mkItems_ids ..).1 (fun j t => mkItems_lists ts _ _ _ _ _ j t)

theorem regParts_ok {t : Ty} {lo hi : Cls} {sse int sse' int' : Nat} (hp : Picked t lo hi sse int sse' int') :
    PartsOk t (allBytes t) (alignUp (sizeOf t) 8) (regParts t lo hi int sse) := by
  obtain ⟨c1, c2, c3, c4, c5⟩ := cls_spec hp.c
  cases t with
  | arr n e => exact absurd hp.c (by rw [cls_arr]; simp)
  | scal s => simp only [PartsOk, Ty.ind, Bool.false_eq_true, if_false, regParts]; exact ⟨_, by rw [sizeOf]⟩
  | agg es =>
    simp only [PartsOk, Ty.ind, if_true, regParts]
    have hpos : 0 < sizeOf (.agg es) := by
      rcases Nat.eq_zero_or_pos (sizeOf (.agg es)) with h | h
      · have hz : alignOf (.agg es) = 0 := classify_zero _ _ _ _ _ hp.c h
        exfalso
        have hno : lo = .no := by
          have : ∀ (es : Tys), maxAlign es = 0 → ∀ l h o, classifyAll es l h o = some (l, h) ∨ classifyAll es l h o = none := by
            intro es hm; exact zero_cls es hm
          have hc := hp.c
          unfold cls classify at hc
          split at hc
          · cases hc
          · rw [alignOf] at hz
            rcases this es hz .no .no (alignUp 0 (maxAlign es)) with e | e <;> simp only [e] at hc
            · simp only [Option.some.injEq, Prod.mk.injEq] at hc; exact hc.1.symm
            · cases hc
        by_cases hi' : lo = .integer
        · rw [hno] at hi'; cases hi'
        · have := (hp.lo2 hi').1; rw [hno] at this; cases this
      · exact h
    rw [alignUp_eight]
    cases h2 : two hi with
    | false =>
      have : ¬ 8 < sizeOf (.agg es) := fun h => by simp [two] at h2; exact c2.2 h h2
      simp only [Bool.false_eq_true, if_false]
      refine ⟨fun k (hk : k < _) => ⟨_, List.mem_singleton.2 rfl, by simp, by simp; omega⟩, fun p hp' => ?_, List.pairwise_singleton ..⟩
      rw [List.mem_singleton] at hp'; subst hp'; simp; omega
    | true =>
      have : 8 < sizeOf (.agg es) := c2.1 (by simpa [two] using h2)
      simp only [if_true]
      refine ⟨fun k (hk : k < _) => ?_, fun p hp' => ?_, ?_⟩
      · by_cases h : k < 8
        · exact ⟨_, List.mem_cons_self .., by simp, by simp; omega⟩
        · exact ⟨_, List.mem_cons_of_mem _ (List.mem_singleton.2 rfl), by simp; omega, by simp; omega⟩
      · rcases List.mem_cons.1 hp' with rfl | h
        · simp; omega
        · rw [List.mem_singleton] at h; subst h; simp; omega
      · simp

end Sysv
end Nature.Abi
