import Verif.Reloc.X86Main
/-!
# C97: relocations of amd64 say what the ABI says

`X86Spec.lean` is the table of the ABI.  The theorems are about `apply` (X86Model.lean).
-/
namespace Nature.Reloc.X86

/-- What the property is about: a place and the addresses of a relocation. -/
structure Case where
  v : Vals
  A : Int
  place : Bytes
  wide : v.Wide
  wideA : Wide A

/-- The value of the relocation in that case. -/
def Case.x (c : Case) (t : Ty) : Int := t.value c.v c.A

/-- **C97.** An applied relocation is in the range of the table, the patched place shows exactly the value and nothing else
changed. -/
theorem C97_applied (c : Case) (t : Ty) (new : Bytes) (h : apply t.code c.v c.A c.place = some new) :
    t.width ≤ c.place.length ∧ t.Fits (c.x t) ∧ t.Shows c.place new (c.x t) := by
  have o := out_apply (l := c.place) t c.wide c.wideA
  rw [h] at o
  obtain ⟨⟨hw, hc⟩, g⟩ := o
  refine ⟨hw, ?_, g.number, g.rest, g.size⟩
  have hc' : CodeRange t (c.x t) := hc
  revert hc'
  generalize c.x t = x
  intro hc'
  cases t <;> first | trivial | exact hc' | skip
  case r16 => exact ⟨by have := hc'.1; omega, hc'.2⟩
  case r8 => exact ⟨hc'.1, by have := hc'.2; omega⟩

/-- A relocation in the range of the table is applied, except that 16-bit data must not be negative, 8-bit data must be below 128 and
64-bit differences and sizes must not wrap. -/
theorem C97_accepted_partial (c : Case) (t : Ty) (hw : t.width ≤ c.place.length) (hx : t.Fits (c.x t))
    (h1 : t = .r16 → 0 ≤ c.x t) (h2 : t = .r8 → c.x t < 2 ^ 7)
    (h3 : t.width = 8 → t ≠ .r64 → -2 ^ 63 ≤ c.x t ∧ c.x t < 2 ^ 63) :
    ∃ new, apply t.code c.v c.A c.place = some new := by
  have o := out_apply (l := c.place) t c.wide c.wideA
  cases h : apply t.code c.v c.A c.place with
  | some new => exact ⟨new, rfl⟩
  | none =>
    rw [h] at o
    exfalso
    apply o
    refine ⟨hw, ?_⟩
    show CodeRange t (c.x t)
    revert hx h1 h2 h3
    generalize c.x t = x
    intro hx h1 h2 h3
    cases t <;> first | exact hx | exact h3 rfl (by simp) | trivial | skip
    case r16 => exact ⟨h1 rfl, hx.2⟩
    case r8 => exact ⟨hx.1, h2 rfl⟩

/-- Numbers outside the table are refused. -/
theorem C97_unknown (c : Case) (n : Nat) (h : ∀ t : Ty, t.code ≠ n) : apply n c.v c.A c.place = none := by
  cases e : writeWidth n with
  | none => unfold apply; rw [e]; rfl
  | some w =>
    have hs : supported n = true := by
      unfold writeWidth at e
      split at e
      · cases e
      · simp_all
    have hn : applyX86 n c.v c.A c.place = none := by
      unfold supported at hs
      simp only [decide_eq_true_eq, List.mem_cons, List.not_mem_nil, or_false] at hs
      rcases hs with hs | hs | hs | hs | hs | hs | hs | hs | hs | hs | hs | hs | hs | hs | hs | hs | hs | hs | hs | hs | hs | hs | hs | hs |
        hs | hs | hs | hs | hs | hs | hs | hs <;> subst hs
      · exact absurd rfl (h .none)
      · exact absurd rfl (h .r64)
      · exact absurd rfl (h .pc32)
      · exact absurd rfl (h .got32)
      · exact absurd rfl (h .plt32)
      · exact absurd rfl (h .gotpcrel)
      · exact absurd rfl (h .r32)
      · exact absurd rfl (h .r32s)
      · exact absurd rfl (h .r16)
      · exact absurd rfl (h .pc16)
      · exact absurd rfl (h .r8)
      · exact absurd rfl (h .pc8)
      · exact absurd rfl (h .dtpoff64)
      · exact absurd rfl (h .tpoff64)
      · rfl
      · rfl
      · exact absurd rfl (h .dtpoff32)
      · exact absurd rfl (h .gottpoff)
      · exact absurd rfl (h .tpoff32)
      · exact absurd rfl (h .pc64)
      · exact absurd rfl (h .gotoff64)
      · exact absurd rfl (h .gotpc32)
      · exact absurd rfl (h .got64)
      · exact absurd rfl (h .gotpcrel64)
      · exact absurd rfl (h .gotpc64)
      · exact absurd rfl (h .pltoff64)
      · exact absurd rfl (h .size32)
      · exact absurd rfl (h .size64)
      · rfl
      · rfl
      · exact absurd rfl (h .gotpcrelx)
      · exact absurd rfl (h .rexGotpcrelx)
    unfold apply
    rw [e]
    simp only [Option.bind_some, hn]
    split <;> rfl

/-- A 32-bit field that is read as a signed displacement from the byte after it leads to the symbol: calls and `lea`. -/
theorem C97_call_reaches (c : Case) (t : Ty) (ht : t = .pc32 ∨ t = .plt32) (hA : c.A = -4) (new : Bytes)
    (h : apply t.code c.v c.A c.place = some new) : (c.v.P : Int) + 4 + signedNat 4 (leNat 4 new) = c.v.S := by
  obtain ⟨_, f, s⟩ := C97_applied c t new h
  have w : t.width = 4 := by rcases ht with rfl | rfl <;> rfl
  have x : c.x t = c.v.S + c.A - c.v.P := by rcases ht with rfl | rfl <;> rfl
  have f' : -2 ^ 31 ≤ c.x t ∧ c.x t < 2 ^ 31 := by rcases ht with rfl | rfl <;> exact f
  have n := s.number
  rw [w] at n
  unfold signedNat
  generalize leNat 4 new = m at n
  rw [hA] at x
  split <;> omega

section NonVacuous
private def exV : Vals := ⟨0x401000, 0x402010, 0x403008, 0x403000, 24, 0x404000, 0x404040, 0x400000⟩
private def ex (A : Int) (h : Wide A) (l : Bytes) : Case := ⟨exV, A, l, by constructor <;> decide, h⟩

/-- A call to a symbol 0x1010 bytes ahead. -/
example : apply 4 exV (-4) [0#8, 0#8, 0#8, 0#8, 0x90#8] = some [0x0c#8, 0x10#8, 0#8, 0#8, 0x90#8] := by decide +kernel

/-- A thread-local offset is negative. -/
example : apply 23 exV (-0x2000) [0#8, 0#8, 0#8, 0#8] = some [0xd0#8, 0xbf#8, 0xff#8, 0xff#8] := by decide +kernel

example : apply 10 exV 0xfffffffff [0#8, 0#8, 0#8, 0#8] = none := by decide +kernel
end NonVacuous

/-- An 8-bit value between 128 and 255 fits the byte but is refused, a negative 16-bit one as well. -/
theorem C97_small_counterexample :
    ∃ c c' : Case, (Ty.r8.width ≤ c.place.length ∧ Ty.r8.Fits (c.x .r8) ∧ apply Ty.r8.code c.v c.A c.place = none) ∧
      Ty.r16.width ≤ c'.place.length ∧ Ty.r16.Fits (c'.x .r16) ∧ apply Ty.r16.code c'.v c'.A c'.place = none := by
  refine ⟨⟨⟨0, 200, 0, 0, 0, 0, 0, 0⟩, 0, [0#8], by constructor <;> decide, by unfold Wide; decide⟩,
    ⟨⟨0, 0, 0, 0, 0, 0, 0, 0⟩, -1, [0#8, 0#8], by constructor <;> decide, by unfold Wide; decide⟩, ?_, ?_⟩
  · exact ⟨by decide, by show (_ : Int) ≤ _ ∧ (_ : Int) < _; decide, by decide +kernel⟩
  · exact ⟨by decide, by show (_ : Int) ≤ _ ∧ (_ : Int) < _; decide, by decide +kernel⟩

end Nature.Reloc.X86
