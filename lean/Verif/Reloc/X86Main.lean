import Verif.Reloc.X86Spec
import Verif.Reloc.X86Model
import Verif.Reloc.ArmMain
/-! When an amd64 relocation is applied, and what it shows then. -/
namespace Nature.Reloc.X86
open Nature.Reloc.Arm (Out)

/-- The number of `n` bytes shows `x`, the rest stayed. -/
structure Good (n : Nat) (old new : Bytes) (x : Int) : Prop where
  number : (leNat n new : Int) = x % 2 ^ (8 * n)
  rest : new.drop n = old.drop n
  size : new.length = old.length

theorem good_store {n : Nat} (hn : n = 1 ∨ n = 2 ∨ n = 4 ∨ n = 8) {l : Bytes} (h : n ≤ l.length) (x : Int) : Good n l (store n l x) x := by
  rcases hn with rfl | rfl | rfl | rfl
  · exact ⟨by show ((leNat 1 (writeU8 l _) : Nat) : Int) = _; rw [leNat_writeU8, toNat_ofInt_emod], drop_writeU8 _ _, length_writeU8 h _⟩
  · exact ⟨by show ((leNat 2 (writeU16 l _) : Nat) : Int) = _; rw [leNat_writeU16, toNat_ofInt_emod], drop_writeU16 _ _, length_writeU16 h _⟩
  · exact ⟨by show ((leNat 4 (writeU32 l _) : Nat) : Int) = _; rw [leNat_writeU32, toNat_ofInt_emod], drop_writeU32 _ _, length_writeU32 h _⟩
  · exact ⟨by show ((leNat 8 (writeU64 l _) : Nat) : Int) = _; rw [leNat_writeU64, toNat_ofInt_emod], drop_writeU64 _ _, length_writeU64 h _⟩

variable {A : Int} {l : Bytes} {base sub n : Nat}

theorem out_relative (hn : n = 1 ∨ n = 2 ∨ n = 4 ∨ n = 8) (hb : base < 2 ^ 64) (hA : Wide A) (hs : sub < 2 ^ 64) (hl : n ≤ l.length) :
    Out (relative base A sub n l) (-2 ^ (8 * n - 1) ≤ base + A - sub ∧ base + A - sub < 2 ^ (8 * n - 1))
      (fun new => Good n l new (base + A - sub)) :=
  (Out.bind_expr (R := True) hb hA hs (by omega) (by omega) fun _ _ => Out.ok (good_store hn hl _)).mono (by simp) (fun _ _ g => g)

theorem out_absSigned (hn : n = 1 ∨ n = 2 ∨ n = 4 ∨ n = 8) (hb : base < 2 ^ 64) (hA : Wide A) (hl : n ≤ l.length) :
    Out (absSigned base A n l) (-2 ^ (8 * n - 1) ≤ base + A ∧ base + A < 2 ^ (8 * n - 1)) (fun new => Good n l new (base + A)) := by
  obtain ⟨e, ok⟩ := integerAdd_val hb hA
  have key := toSigned_iff (bits := 8 * n) ok.mag (by omega) (by omega)
  unfold absSigned
  cases h : (integerAdd base A).toSigned (8 * n) with
  | none =>
    intro hr
    have := (key _).2 ⟨e.symm, hr⟩
    rw [h] at this
    cases this
  | some x =>
    obtain ⟨h1, h2⟩ := (key x).1 h
    rw [e] at h1
    subst h1
    exact ⟨h2, good_store hn hl _⟩

theorem out_absUnsigned (hn : n = 1 ∨ n = 2 ∨ n = 4 ∨ n = 8) (hb : base < 2 ^ 64) (hA : Wide A) (hl : n ≤ l.length) :
    Out (absUnsigned base A n l) (0 ≤ base + A ∧ base + A < 2 ^ (8 * n)) (fun new => Good n l new (base + A)) := by
  obtain ⟨e, ok⟩ := integerAdd_val hb hA
  unfold absUnsigned
  refine (Out.bind_unsigned (R := True) ok.mag (integerAdd_normal _ _) (by omega) (by omega) fun m h1 h2 => Out.ok ?_).mono
    (by rw [e]; simp) (fun _ _ g => g)
  rw [e] at h1
  rw [← h1]
  exact good_store hn hl _

/-- What the code demands of the value. -/
def CodeRange (t : Ty) (x : Int) : Prop :=
  match t with
  | .none | .r64 => True
  | .r32 => 0 ≤ x ∧ x < 2 ^ 32
  | .r16 => 0 ≤ x ∧ x < 2 ^ 16
  | .r8 | .pc8 => -2 ^ 7 ≤ x ∧ x < 2 ^ 7
  | .pc16 => -2 ^ 15 ≤ x ∧ x < 2 ^ 15
  | _ => if t.width = 8 then -2 ^ 63 ≤ x ∧ x < 2 ^ 63 else -2 ^ 31 ≤ x ∧ x < 2 ^ 31

theorem out_apply {v : Vals} (t : Ty) (hv : v.Wide) (hA : Wide A) :
    Out (apply t.code v A l) (t.width ≤ l.length ∧ CodeRange t (t.value v A)) (fun new => Good t.width l new (t.value v A)) := by
  have fin : writeWidth t.code = some t.width →
      (t.width ≤ l.length → Out (applyX86 t.code v A l) (CodeRange t (t.value v A)) (fun new => Good t.width l new (t.value v A))) →
      Out (apply t.code v A l) (t.width ≤ l.length ∧ CodeRange t (t.value v A)) (fun new => Good t.width l new (t.value v A)) := by
    intro h1 h2
    unfold apply
    rw [h1]
    simp only [Option.bind_some]
    refine (Out.ite_not fun hc => h2 (by omega)).mono ?_ (fun _ _ g => g)
    rw [Nat.not_lt]
  have h1 : writeWidth t.code = some t.width := by cases t <;> rfl
  refine fin h1 fun hl => ?_
  cases t
  case none => exact ⟨trivial, by simp [Ty.width, leNat, Ty.value], rfl, rfl⟩
  case r64 =>
    exact ⟨trivial, by show ((leNat 8 (writeU64 l _) : Nat) : Int) = _; rw [leNat_writeU64, addModulo_toNat]; rfl, drop_writeU64 _ _,
      length_writeU64 hl _⟩
  case pc32 => exact out_relative (n := 4) (by simp) hv.S hA hv.P hl
  case plt32 => exact out_relative (n := 4) (by simp) hv.S hA hv.P hl
  case pc16 => exact out_relative (n := 2) (by simp) hv.S hA hv.P hl
  case pc8 => exact out_relative (n := 1) (by simp) hv.S hA hv.P hl
  case pc64 => exact out_relative (n := 8) (by simp) hv.S hA hv.P hl
  case got32 => exact out_relative (n := 4) (by simp) hv.G hA hv.GOT hl
  case got64 => exact out_relative (n := 8) (by simp) hv.G hA hv.GOT hl
  case gotpcrel => exact out_relative (n := 4) (by simp) hv.G hA hv.P hl
  case gotpcrelx => exact out_relative (n := 4) (by simp) hv.G hA hv.P hl
  case rexGotpcrelx => exact out_relative (n := 4) (by simp) hv.G hA hv.P hl
  case gottpoff => exact out_relative (n := 4) (by simp) hv.G hA hv.P hl
  case gotpcrel64 => exact out_relative (n := 8) (by simp) hv.G hA hv.P hl
  case gotpc32 => exact out_relative (n := 4) (by simp) hv.GOT hA hv.P hl
  case gotpc64 => exact out_relative (n := 8) (by simp) hv.GOT hA hv.P hl
  case gotoff64 => exact out_relative (n := 8) (by simp) hv.S hA hv.GOT hl
  case pltoff64 => exact out_relative (n := 8) (by simp) hv.S hA hv.GOT hl
  case tpoff32 => exact out_relative (n := 4) (by simp) hv.S hA hv.TP hl
  case tpoff64 => exact out_relative (n := 8) (by simp) hv.S hA hv.TP hl
  case dtpoff32 => exact out_relative (n := 4) (by simp) hv.S hA hv.TLS hl
  case dtpoff64 => exact out_relative (n := 8) (by simp) hv.S hA hv.TLS hl
  case size32 => exact out_absSigned (n := 4) (by simp) hv.Z hA hl
  case size64 => exact out_absSigned (n := 8) (by simp) hv.Z hA hl
  case r32 => exact out_absUnsigned (n := 4) (by simp) hv.S hA hl
  case r32s => exact out_absSigned (n := 4) (by simp) hv.S hA hl
  case r16 => exact out_absUnsigned (n := 2) (by simp) hv.S hA hl
  case r8 => exact out_absSigned (n := 1) (by simp) hv.S hA hl

end Nature.Reloc.X86
