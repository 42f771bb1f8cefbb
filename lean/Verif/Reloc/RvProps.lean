import Verif.Reloc.RvMain
/-!
# C95: relocations of riscv64 say what the psABI says

`RvSpec.lean` is the table of the psABI.  The theorems are about `apply` (RvModel.lean).
-/
namespace Nature.Reloc.Rv

/-- What the property is about: a place, the addresses of a relocation and, for low parts, its high part. -/
structure Case where
  v : Vals
  A : Int
  hi : Option Hi
  place : Bytes
  wide : v.Wide
  wideA : Wide A
  wideHi : ∀ h, hi = some h → h.Wide

/-- The value of the relocation in that case. -/
def Case.x (c : Case) (t : Ty) : Int := t.value c.v c.A c.hi

/-- **C95, partial.** An applied relocation fits its field, its instruction has the right form, the patched place shows exactly
the value of the psABI and nothing else changed.  For the high parts of 32-bit values (U immediates and call pairs) this needs
the value below 2^31 − 2048: the code accepts values up to 2^31 − 1 and is wrong there, `C95_high_counterexample`. -/
theorem C95_applied_partial (c : Case) (t : Ty) (new : Bytes) (h : apply t.code c.v c.A c.hi c.place = some new)
    (hr : t.field = .U ∨ t.field = .pair → c.x t < 2 ^ 31 - 2048) :
    t.Form c.v c.A c.hi c.place ∧ t.field.Fits (c.x t) ∧ t.field.Shows c.place new (c.x t) ∧ t.field.Keeps c.place new := by
  obtain ⟨h1, h2⟩ := apply_iff t (l := c.place) c.wide c.wideA c.wideHi
  obtain ⟨_, hf, hc, _⟩ := h1.1 ⟨new, h⟩
  have fits : t.field.Fits (c.x t) := by
    have hc' : CodeRange t.field (c.x t) := hc
    revert hr hc'
    generalize c.x t = x
    cases t.field <;> intro hr hc' <;> first | exact hc' | trivial | skip
    · have := hr (Or.inl rfl); exact ⟨by have := hc'.1; omega, this⟩
    · have := hr (Or.inr rfl); exact ⟨by have := hc'.1; omega, this⟩
  obtain ⟨g1, g2, g3⟩ := h2 new h fits
  exact ⟨hf, g1, g2, g3⟩

/-- The upper end of the 32-bit range is accepted and wrong: against a symbol 2^31 − 1 bytes away a call sequence jumps 4 GiB
below its target. -/
theorem C95_high_counterexample :
    ∃ (c : Case) (new : Bytes), apply Ty.callPlt.code c.v c.A c.hi c.place = some new ∧
      immU (insn new) + immI (insn (new.drop 4)) = c.x .callPlt - 2 ^ 32 := by
  refine ⟨⟨⟨0x10000, 0x8000fffe, 0, 0, 0, 0, 0, 0⟩, 0, none, [0x97#8, 0#8, 0#8, 0#8, 0xe7#8, 0x80#8, 0#8, 0#8],
    by constructor <;> decide, by unfold Wide; decide, by simp⟩, [0x97#8, 0#8, 0#8, 0x80#8, 0xe7#8, 0x80#8, 0xe0#8, 0xff#8], by decide +kernel, by decide +kernel⟩

/-- A relocation that fits, on an instruction of the right form, is applied.  For parts of 32-bit values: from −2^31 on (the
2048 values below that the parts could also show are refused). -/
theorem C95_accepted (c : Case) (t : Ty) (hw : t.width ≤ c.place.length) (hf : t.Form c.v c.A c.hi c.place)
    (hx : t.field.Fits (c.x t)) (hr : t.field ∈ [.U, .pair, .I, .S] → -2 ^ 31 ≤ c.x t ∧ c.x t < 2 ^ 31)
    (ht : t = .dtprel32 ∨ t = .dtprel64 → c.v.TLS + 0x800 < 2 ^ 64) :
    ∃ new, apply t.code c.v c.A c.hi c.place = some new := by
  obtain ⟨h1, _⟩ := apply_iff t (l := c.place) c.wide c.wideA c.wideHi
  refine h1.2 ⟨hw, hf, ?_, ht⟩
  show CodeRange t.field (c.x t)
  revert hx hr
  generalize c.x t = x
  cases t.field <;> intro hx hr <;> first | exact hx | exact hr (by simp)

/-- High and low part of a PC-relative address: the two instructions together reach the target, S + A (or the GOT entry + A),
from the address of the first. -/
theorem C95_pcrel_pair_partial (hiC loC : Case) (h : Hi) (tLo : Ty) (tHi : Ty) (newHi newLo : Bytes)
    (hlo : tLo = .pcrelLo12I ∨ tLo = .pcrelLo12S) (hhi : tHi ∈ [Ty.pcrelHi20, .gotHi20, .tlsGotHi20, .tlsGdHi20])
    (same : loC.hi = some h) (e1 : h.type = tHi.code) (e2 : h.P = hiC.v.P) (e3 : h.S = hiC.v.S) (e4 : h.G = hiC.v.G) (e5 : h.A = hiC.A)
    (ah : apply tHi.code hiC.v hiC.A hiC.hi hiC.place = some newHi) (al : apply tLo.code loC.v loC.A loC.hi loC.place = some newLo)
    (hr : hiC.x tHi < 2 ^ 31 - 2048) :
    hiC.v.P + immU (insn newHi) + (if tLo = .pcrelLo12I then immI (insn newLo) else immS (insn newLo)) =
      (if tHi = .pcrelHi20 then (hiC.v.S : Int) else hiC.v.G) + hiC.A := by
  have fU : tHi.field = .U := by
    simp only [List.mem_cons, List.not_mem_nil, or_false] at hhi
    rcases hhi with rfl | rfl | rfl | rfl <;> rfl
  obtain ⟨_, _, s1, _⟩ := C95_applied_partial hiC tHi newHi ah (fun _ => hr)
  rw [fU] at s1
  have s1 : immU (insn newHi) = hiC.x tHi - lo12 (hiC.x tHi) := s1
  have xe : loC.x tLo = hiC.x tHi := by
    have a : loC.x tLo = h.value := by
      unfold Case.x
      rw [same]
      rcases hlo with rfl | rfl <;> rfl
    rw [a]
    unfold Hi.value Case.x
    rw [e1, e2, e3, e4, e5]
    simp only [List.mem_cons, List.not_mem_nil, or_false] at hhi
    rcases hhi with rfl | rfl | rfl | rfl <;> simp [Ty.code, Ty.value]
  have xv : hiC.x tHi = (if tHi = .pcrelHi20 then (hiC.v.S : Int) else hiC.v.G) + hiC.A - hiC.v.P := by
    unfold Case.x
    simp only [List.mem_cons, List.not_mem_nil, or_false] at hhi
    rcases hhi with rfl | rfl | rfl | rfl <;> simp [Ty.value]
  rcases hlo with rfl | rfl
  · obtain ⟨_, _, s2, _⟩ := C95_applied_partial loC .pcrelLo12I newLo al (by simp [Ty.field])
    have s2 : immI (insn newLo) = lo12 (loC.x .pcrelLo12I) := s2
    rw [xe] at s2
    simp only [if_true]
    omega
  · obtain ⟨_, _, s2, _⟩ := C95_applied_partial loC .pcrelLo12S newLo al (by simp [Ty.field])
    have s2 : immS (insn newLo) = lo12 (loC.x .pcrelLo12S) := s2
    rw [xe] at s2
    simp only [reduceCtorEq, if_false]
    omega

/-- Absolute and thread-relative addresses in two instructions, in the same way. -/
theorem C95_absolute_pair_partial (a b : Case) (tls store : Bool) (newHi newLo : Bytes) (hv : a.v = b.v) (hA : a.A = b.A)
    (ah : apply (if tls then Ty.tprelHi20 else Ty.hi20).code a.v a.A a.hi a.place = some newHi)
    (al : apply (if tls then (if store then Ty.tprelLo12S else Ty.tprelLo12I) else (if store then Ty.lo12S else Ty.lo12I)).code
      b.v b.A b.hi b.place = some newLo)
    (hr : (a.v.S : Int) + a.A - (if tls then (a.v.TP : Int) else 0) < 2 ^ 31 - 2048) :
    immU (insn newHi) + (if store then immS (insn newLo) else immI (insn newLo)) =
      a.v.S + a.A - (if tls then (a.v.TP : Int) else 0) := by
  cases tls
  · obtain ⟨_, _, s1, _⟩ := C95_applied_partial a .hi20 newHi ah (fun _ => by simpa [Case.x, Ty.value] using hr)
    have s1 : immU (insn newHi) = a.x .hi20 - lo12 (a.x .hi20) := s1
    have e1 : a.x .hi20 = a.v.S + a.A := rfl
    cases store
    · obtain ⟨_, _, s2, _⟩ := C95_applied_partial b .lo12I newLo al (by simp [Ty.field])
      have s2 : immI (insn newLo) = lo12 (b.v.S + b.A) := s2
      rw [← hv, ← hA] at s2
      simp only [Bool.false_eq_true, if_false]
      rw [e1] at s1
      omega
    · obtain ⟨_, _, s2, _⟩ := C95_applied_partial b .lo12S newLo al (by simp [Ty.field])
      have s2 : immS (insn newLo) = lo12 (b.v.S + b.A) := s2
      rw [← hv, ← hA] at s2
      simp only [Bool.false_eq_true, if_false, if_true]
      rw [e1] at s1
      omega
  · obtain ⟨_, _, s1, _⟩ := C95_applied_partial a .tprelHi20 newHi ah (fun _ => by simpa [Case.x, Ty.value] using hr)
    have s1 : immU (insn newHi) = a.x .tprelHi20 - lo12 (a.x .tprelHi20) := s1
    have e1 : a.x .tprelHi20 = a.v.S + a.A - a.v.TP := rfl
    cases store
    · obtain ⟨_, _, s2, _⟩ := C95_applied_partial b .tprelLo12I newLo al (by simp [Ty.field])
      have s2 : immI (insn newLo) = lo12 (b.v.S + b.A - b.v.TP) := s2
      rw [← hv, ← hA] at s2
      simp only [Bool.false_eq_true, if_false, if_true]
      rw [e1] at s1
      omega
    · obtain ⟨_, _, s2, _⟩ := C95_applied_partial b .tprelLo12S newLo al (by simp [Ty.field])
      have s2 : immS (insn newLo) = lo12 (b.v.S + b.A - b.v.TP) := s2
      rw [← hv, ← hA] at s2
      simp only [if_true]
      rw [e1] at s1
      omega

/-- An alignment relocation (number 43) that was not relaxed changes nothing and is accepted exactly if the next instruction is
aligned to the smallest power of two above the padding and the padding consists of no-ops. -/
theorem C95_align (c : Case) (new : Bytes) :
    apply 43 c.v c.A c.hi c.place = some new ↔ new = c.place ∧ 0 ≤ c.A ∧ c.A.toNat ≤ c.place.length ∧
      (c.A ≠ 0 → c.v.P + c.A.toNat < 2 ^ 64 ∧ (∀ p, PowAbove c.A.toNat p → (c.v.P + c.A.toNat) % p = 0) ∧
        Nops (c.place.take c.A.toNat)) :=
  align_iff c.wideA

/-- Numbers outside the table, 43, 60 and 61 are refused. -/
theorem C95_unknown (c : Case) (n : Nat) (h : ∀ t : Ty, t.code ≠ n) (h43 : n ≠ 43) : apply n c.v c.A c.hi c.place = none := by
  have : writeWidth n = none := by
    unfold writeWidth
    split <;> first | rfl | skip
    all_goals exfalso
    all_goals first | exact h .none rfl | exact h .relax rfl | exact h43 rfl | exact h .add8 rfl | exact h .sub8 rfl | exact h .sub6 rfl | exact h .set6 rfl | exact h .set8 rfl | exact h .add16 rfl | exact h .sub16 rfl | exact h .set16 rfl | exact h .rvcBranch rfl | exact h .rvcJump rfl | exact h .r64 rfl | exact h .relative rfl | exact h .dtprel64 rfl | exact h .tprel64 rfl | exact h .add64 rfl | exact h .sub64 rfl | exact h .call rfl | exact h .callPlt rfl | exact h .r32 rfl | exact h .dtprel32 rfl | exact h .tprel32 rfl | exact h .branch rfl | exact h .jal rfl | exact h .gotHi20 rfl | exact h .tlsGotHi20 rfl | exact h .tlsGdHi20 rfl | exact h .pcrelHi20 rfl | exact h .pcrelLo12I rfl | exact h .pcrelLo12S rfl | exact h .hi20 rfl | exact h .lo12I rfl | exact h .lo12S rfl | exact h .tprelHi20 rfl | exact h .tprelLo12I rfl | exact h .tprelLo12S rfl | exact h .tprelAdd rfl | exact h .add32 rfl | exact h .sub32 rfl | exact h .set32 rfl | exact h .pcrel32 rfl
  unfold apply
  rw [this]

/-! ### Examples -/

/-- A backward branch `beq a0, a1, .-8`. -/
def exBranch : Case := ⟨⟨0x11008, 0x11000, 0, 0, 0, 0, 0, 0⟩, 0, none, [0x63#8, 0x00#8, 0xb5#8, 0x00#8, 0x13#8],
  by constructor <;> decide, by unfold Wide; decide, by simp⟩

example : apply Ty.branch.code exBranch.v exBranch.A exBranch.hi exBranch.place = some [0xe3#8, 0x0c#8, 0xb5#8, 0xfe#8, 0x13#8] := rfl
example : exBranch.x .branch = -8 := rfl

/-- `auipc a0, 0` and `addi a0, a0, 0` against a symbol 0x1900 bytes further. -/
def exHi : Case := ⟨⟨0x11000, 0x12900, 0, 0, 0, 0, 0, 0⟩, 0, none, [0x17#8, 0x05#8, 0#8, 0#8], by constructor <;> decide, by unfold Wide; decide, by simp⟩
def exLo : Case := ⟨⟨0x11004, 0x11000, 0, 0, 0, 0, 0, 0⟩, 0, some ⟨23, 0x11000, 0x12900, 0, 0⟩, [0x13#8, 0x05#8, 0x05#8, 0#8],
  by constructor <;> decide, by unfold Wide; decide, by intro h e; cases e; constructor <;> first | decide | (unfold Wide; decide)⟩

example : apply Ty.pcrelHi20.code exHi.v exHi.A exHi.hi exHi.place = some [0x17#8, 0x25#8, 0#8, 0#8] := rfl
example : apply Ty.pcrelLo12I.code exLo.v exLo.A exLo.hi exLo.place = some [0x13#8, 0x05#8, 0x05#8, 0x90#8] := rfl
example : immU (insn [0x17#8, 0x25#8, 0#8, 0#8]) + immI (insn [0x13#8, 0x05#8, 0x05#8, 0x90#8]) = 0x1900 := rfl

/-- Six bytes of padding before an address that is a multiple of eight. -/
def exAlign : Case := ⟨⟨0x11002, 0, 0, 0, 0, 0, 0, 0⟩, 6, none, [0x01#8, 0x00#8, 0x13#8, 0#8, 0#8, 0#8, 0x63#8],
  by constructor <;> decide, by unfold Wide; decide, by simp⟩
example : apply 43 exAlign.v exAlign.A exAlign.hi exAlign.place = some exAlign.place := rfl
example : apply 43 { exAlign.v with P := 0x11004 } exAlign.A exAlign.hi exAlign.place = none := rfl

end Nature.Reloc.Rv
