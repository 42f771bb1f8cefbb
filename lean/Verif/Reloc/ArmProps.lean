import Verif.Reloc.ArmMain
/-!
# C96: relocations of arm64 say what the ABI says

`ArmSpec.lean` is the table of the ABI.  The theorems are about `apply` (ArmModel.lean).
-/
namespace Nature.Reloc.Arm

/-- What the property is about: a place and the addresses of a relocation. -/
structure Case where
  v : Vals
  A : Int
  place : Bytes
  wide : v.Wide
  wideA : Wide A

/-- The value of the relocation in that case. -/
def Case.x (c : Case) (t : Ty) : Int := t.value c.v c.A

/-- **C96, partial.** An applied relocation is in the range of the table, stood on the right instruction, the patched place shows
exactly the value and nothing else changed.  For thread-relative high parts and TLS descriptor calls this needs a non-negative
value: the code takes negative ones and is wrong there, `C96_negative_counterexample` and `C96_descriptor_counterexample`. -/
theorem C96_applied_partial (c : Case) (t : Ty) (new : Bytes) (h : apply t.code c.v c.A c.place = some new)
    (hr : t = .tlsleHi12 ∨ t = .descAdd ∨ t = .descCall → 0 ≤ c.x t) :
    t.Form c.place ∧ t.Fits (c.x t) ∧ t.field.Shows c.place new (c.x t) ∧ t.field.Keeps c.place new := by
  have o := out_apply (l := c.place) t c.wide c.wideA
  rw [h] at o
  obtain ⟨⟨_, hf, hc⟩, g⟩ := o
  obtain ⟨g1, g2⟩ := g hr
  refine ⟨hf, ?_, g1, g2⟩
  have hc' : CodeRange t (c.x t) := hc
  revert hr hc'
  generalize c.x t = x
  intro hr hc'
  cases t <;> first | exact hc' | trivial | skip
  case abs32 => exact ⟨by have := hc'.1; omega, hc'.2⟩
  case abs16 => exact ⟨by have := hc'.1; omega, hc'.2⟩
  case prel32 => exact ⟨hc'.1, by have := hc'.2; omega⟩
  case prel16 => exact ⟨hc'.1, by have := hc'.2; omega⟩
  case tlsleHi12 => exact ⟨hr (by simp), by have := hc'.2; omega⟩
  case tlsleLdstnc s => exact hc'.1
  case descAdd => exact ⟨hr (by simp), by have := hc'.2; omega⟩
  case descCall => exact ⟨hr (by simp), by have := hc'.2; omega⟩

/-- A relocation in the range of the table is applied, with these exceptions: 32-bit and 16-bit absolute data and the fourth
group of moves only for 0 ≤ S + A (and no wrap), 32-bit and 16-bit relative data only in the signed range, 64-bit relative data and
unchecked thread offsets only for a 64-bit difference, thread-relative high parts only below 2^23 and descriptor calls below 2^31. -/
theorem C96_accepted_partial (c : Case) (t : Ty) (hw : t.field.width ≤ c.place.length) (hf : t.Form c.place) (hx : t.Fits (c.x t))
    (h1 : t = .abs32 ∨ t = .abs16 ∨ t = .g3 → 0 ≤ c.x t ∧ c.x t < 2 ^ 64)
    (h2 : t = .prel32 ∨ t = .descAdd ∨ t = .descCall → c.x t < 2 ^ 31) (h3 : t = .prel16 → c.x t < 2 ^ 15)
    (h4 : t = .tlsleHi12 → c.x t < 2 ^ 23)
    (h5 : t = .prel64 ∨ t = .tlsleLo12nc ∨ (∃ s, t = .tlsleLdstnc s) → -2 ^ 63 ≤ c.x t ∧ c.x t < 2 ^ 63) :
    ∃ new, apply t.code c.v c.A c.place = some new := by
  have o := out_apply (l := c.place) t c.wide c.wideA
  cases h : apply t.code c.v c.A c.place with
  | some new => exact ⟨new, rfl⟩
  | none =>
    rw [h] at o
    exfalso
    apply o
    refine ⟨hw, hf, ?_⟩
    show CodeRange t (c.x t)
    revert hx h1 h2 h3 h4 h5
    generalize c.x t = x
    intro hx h1 h2 h3 h4 h5
    cases t <;> first | exact hx | exact h5 (by simp) | exact h1 (by simp) | skip
    case abs32 => exact ⟨(h1 (by simp)).1, hx.2⟩
    case abs16 => exact ⟨(h1 (by simp)).1, hx.2⟩
    case prel32 => exact ⟨hx.1, h2 (by simp)⟩
    case prel16 => exact ⟨hx.1, h3 rfl⟩
    case tlsleHi12 => exact ⟨by have := hx.1; omega, h4 rfl⟩
    case tlsleLdstnc s => exact ⟨hx, h5 (by simp)⟩
    case descAdd => exact ⟨by have := hx.1; omega, h2 (by simp)⟩
    case descCall => exact ⟨by have := hx.1; omega, h2 (by simp)⟩

/-- Numbers outside the table are refused. -/
theorem C96_unknown (c : Case) (n : Nat) (h : ∀ t : Ty, t.code ≠ n) : apply n c.v c.A c.place = none := by
  have : writeWidth n = none := by
    unfold writeWidth
    have : supported n = false := by
      unfold supported
      simp only [decide_eq_false_iff_not, List.mem_cons, List.not_mem_nil, or_false]
      rintro (e | e | e | e | e | e | e | e | e | e | e | e | e | e | e | e | e | e | e | e | e | e | e | e | e | e | e | e | e | e | e | e |
        e | e | e | e | e | e | e | e | e | e | e | e | e | e | e | e | e | e | e | e) <;> subst e
      · exact h .none rfl
      · exact h .abs64 rfl
      · exact h .abs32 rfl
      · exact h .abs16 rfl
      · exact h .prel64 rfl
      · exact h .prel32 rfl
      · exact h .prel16 rfl
      · exact h .g0 rfl
      · exact h .g0nc rfl
      · exact h .g1 rfl
      · exact h .g1nc rfl
      · exact h .g2 rfl
      · exact h .g2nc rfl
      · exact h .g3 rfl
      · exact h .ldPrel19 rfl
      · exact h .adr21 rfl
      · exact h .adrPage rfl
      · exact h .addLo12 rfl
      · exact h (.ldst .s1) rfl
      · exact h .tstbr14 rfl
      · exact h .condbr19 rfl
      · exact h .jump26 rfl
      · exact h .call26 rfl
      · exact h (.ldst .s2) rfl
      · exact h (.ldst .s4) rfl
      · exact h (.ldst .s8) rfl
      · exact h (.ldst .s16) rfl
      · exact h .gotLd19 rfl
      · exact h .gotPage rfl
      · exact h .gotLo12 rfl
      · exact h .gotPage15 rfl
      · exact h .tlsgdPage rfl
      · exact h .tlsgdLo12 rfl
      · exact h .tlsiePage rfl
      · exact h .tlsieLo12 rfl
      · exact h .tlsleHi12 rfl
      · exact h .tlsleLo12 rfl
      · exact h .tlsleLo12nc rfl
      · exact h (.tlsleLdst .s1) rfl
      · exact h (.tlsleLdstnc .s1) rfl
      · exact h (.tlsleLdst .s2) rfl
      · exact h (.tlsleLdstnc .s2) rfl
      · exact h (.tlsleLdst .s4) rfl
      · exact h (.tlsleLdstnc .s4) rfl
      · exact h (.tlsleLdst .s8) rfl
      · exact h (.tlsleLdstnc .s8) rfl
      · exact h .descPage rfl
      · exact h .descLd rfl
      · exact h .descAdd rfl
      · exact h .descCall rfl
      · exact h (.tlsleLdst .s16) rfl
      · exact h (.tlsleLdstnc .s16) rfl
    rw [this]; rfl
  unfold apply
  rw [this]

/-- The unsigned 12-bit immediate of ADD and of loads and stores. -/
def imm12 (w : BitVec 32) : Nat := (w.extractLsb' 10 12).toNat

/-- ADRP followed by ADD, or by a load or store of `s` bytes: together they reach S + A, whatever the addresses. -/
theorem C96_page_pair (a b : Case) (t : Ty) (n : Nat) (newHi newLo : Bytes) (ht : (t = .addLo12 ∧ n = 1) ∨ ∃ s : Scale, t = .ldst s ∧ n = s.bytes)
    (hS : a.v.S = b.v.S) (hA : a.A = b.A) (ah : apply Ty.adrPage.code a.v a.A a.place = some newHi)
    (al : apply t.code b.v b.A b.place = some newLo) :
    page a.v.P + adrImm (insn newHi) * 4096 + imm12 (insn newLo) * n = a.v.S + a.A := by
  obtain ⟨_, _, s1, _⟩ := C96_applied_partial a .adrPage newHi ah (by simp)
  have s1 : adrImm (insn newHi) * 4096 = page (a.v.S + a.A) - page a.v.P := s1
  have s2 : (imm12 (insn newLo) : Int) * n = (b.v.S + b.A) % 4096 := by
    rcases ht with ⟨rfl, rfl⟩ | ⟨s, rfl, rfl⟩
    · exact (C96_applied_partial b .addLo12 newLo al (by simp)).2.2.1
    · exact (C96_applied_partial b (.ldst s) newLo al (by simp)).2.2.1
  rw [← hS, ← hA] at s2
  unfold page at *
  omega

/-- The same for the GOT entry: ADRP followed by the load of the entry. -/
theorem C96_got_pair (a b : Case) (tls : Bool) (newHi newLo : Bytes) (hG : a.v.G = b.v.G) (hA : a.A = b.A)
    (ah : apply (if tls then Ty.tlsiePage else Ty.gotPage).code a.v a.A a.place = some newHi)
    (al : apply (if tls then Ty.tlsieLo12 else Ty.gotLo12).code b.v b.A b.place = some newLo) :
    page a.v.P + adrImm (insn newHi) * 4096 + imm12 (insn newLo) * 8 = a.v.G + a.A := by
  have s1 : adrImm (insn newHi) * 4096 = page (a.v.G + a.A) - page a.v.P := by
    cases tls
    · exact (C96_applied_partial a .gotPage newHi ah (by simp)).2.2.1
    · exact (C96_applied_partial a .tlsiePage newHi ah (by simp)).2.2.1
  have s2 : (imm12 (insn newLo) : Int) * 8 = (b.v.G + b.A) % 4096 := by
    cases tls
    · exact (C96_applied_partial b .gotLo12 newLo al (by simp)).2.2.1
    · exact (C96_applied_partial b .tlsieLo12 newLo al (by simp)).2.2.1
  rw [← hG, ← hA] at s2
  unfold page at *
  omega

/-- The unsigned 16-bit immediate of the moves. -/
def imm16 (w : BitVec 32) : Nat := (w.extractLsb' 5 16).toNat

/-- Four moves of 16 bits load S + A. -/
theorem C96_move_quad (a b c d : Case) (n0 n1 n2 n3 : Bytes) (hb : b.v.S + b.A = a.v.S + a.A) (hc : c.v.S + c.A = a.v.S + a.A)
    (hd : d.v.S + d.A = a.v.S + a.A) (h0 : apply Ty.g0nc.code a.v a.A a.place = some n0) (h1 : apply Ty.g1nc.code b.v b.A b.place = some n1)
    (h2 : apply Ty.g2nc.code c.v c.A c.place = some n2) (h3 : apply Ty.g3.code d.v d.A d.place = some n3) :
    (imm16 (insn n0) + 2 ^ 16 * imm16 (insn n1) + 2 ^ 32 * imm16 (insn n2) + 2 ^ 48 * imm16 (insn n3) : Int) = (a.v.S + a.A) % 2 ^ 64 := by
  have s0 : (imm16 (insn n0) : Int) = (a.v.S + a.A) / 2 ^ 0 % 2 ^ 16 := (C96_applied_partial a .g0nc n0 h0 (by simp)).2.2.1
  have s1 : (imm16 (insn n1) : Int) = (b.v.S + b.A) / 2 ^ 16 % 2 ^ 16 := (C96_applied_partial b .g1nc n1 h1 (by simp)).2.2.1
  have s2 : (imm16 (insn n2) : Int) = (c.v.S + c.A) / 2 ^ 32 % 2 ^ 16 := (C96_applied_partial c .g2nc n2 h2 (by simp)).2.2.1
  have s3 : (imm16 (insn n3) : Int) = (d.v.S + d.A) / 2 ^ 48 % 2 ^ 16 := (C96_applied_partial d .g3 n3 h3 (by simp)).2.2.1
  rw [hb] at s1
  rw [hc] at s2
  rw [hd] at s3
  omega

/-- A thread-relative address in two additions, and a replaced descriptor call: both give the offset from the thread pointer. -/
theorem C96_thread_pair_partial (a b : Case) (desc : Bool) (n0 n1 : Bytes) (hv : a.v.S + a.A - a.v.TP = b.v.S + b.A - b.v.TP)
    (hx : (0 : Int) ≤ a.v.S + a.A - a.v.TP)
    (h0 : apply (if desc then Ty.descAdd else Ty.tlsleHi12).code a.v a.A a.place = some n0)
    (h1 : apply (if desc then Ty.descCall else Ty.tlsleLo12nc).code b.v b.A b.place = some n1) :
    (if desc then (imm16 (insn n0) * 2 ^ 16 + imm16 (insn n1) : Int) else imm12 (insn n0) * 4096 + imm12 (insn n1)) = a.v.S + a.A - a.v.TP := by
  cases desc
  · have s0 : (imm12 (insn n0) : Int) * 4096 = (a.v.S + a.A - a.v.TP) - (a.v.S + a.A - a.v.TP) % 4096 :=
      (C96_applied_partial a .tlsleHi12 n0 h0 (fun _ => hx)).2.2.1
    have s1 : (imm12 (insn n1) : Int) * (1 : Nat) = (b.v.S + b.A - b.v.TP) % 4096 := (C96_applied_partial b .tlsleLo12nc n1 h1 (by simp)).2.2.1
    simp only [Bool.false_eq_true, if_false]
    omega
  · have s0 := (C96_applied_partial a .descAdd n0 h0 (fun _ => hx)).2.2.1
    have s0 : (imm16 (insn n0) : Int) * 2 ^ 16 = (a.v.S + a.A - a.v.TP) - (a.v.S + a.A - a.v.TP) % 2 ^ 16 := s0.2.2
    have s1 := (C96_applied_partial b .descCall n1 h1 (fun _ => by show (0 : Int) ≤ b.v.S + b.A - b.v.TP; omega)).2.2.1
    have s1 : (imm16 (insn n1) : Int) = (b.v.S + b.A - b.v.TP) % 2 ^ 16 := s1.2.2
    simp only [if_true]
    omega

/-- A thread-relative high part for an offset below the thread pointer is accepted, and the two additions are off by 2^24. -/
theorem C96_negative_counterexample :
    ∃ (c : Case) (n0 n1 : Bytes), apply Ty.tlsleHi12.code c.v c.A c.place = some n0 ∧ apply Ty.tlsleLo12nc.code c.v c.A c.place = some n1 ∧
      (imm12 (insn n0) * 4096 + imm12 (insn n1) : Int) = c.x .tlsleHi12 + 2 ^ 24 :=
  ⟨⟨⟨0, 0x1000, 0, 0, 0, 0, 0x1010, 0⟩, 0, [0x00#8, 0x00#8, 0x40#8, 0x91#8], by constructor <;> decide, by unfold Wide; decide⟩,
    [0x00#8, 0xfc#8, 0x7f#8, 0x91#8], [0x00#8, 0xc0#8, 0x7f#8, 0x91#8], by decide +kernel, by decide +kernel, by decide +kernel⟩

/-- The largest offsets the two additions could show are refused. -/
theorem C96_high_counterexample :
    ∃ c : Case, Ty.tlsleHi12.Fits (c.x .tlsleHi12) ∧ 4 ≤ c.place.length ∧ apply Ty.tlsleHi12.code c.v c.A c.place = none :=
  ⟨⟨⟨0, 0x801000, 0, 0, 0, 0, 0x1000, 0⟩, 0, [0x00#8, 0x00#8, 0x40#8, 0x91#8], by constructor <;> decide, by unfold Wide; decide⟩,
    by constructor <;> decide, by decide, by decide +kernel⟩

/-- A TLS descriptor call for an offset below the thread pointer is accepted, and the offset loaded is off by 2^32. -/
theorem C96_descriptor_counterexample :
    ∃ (c d : Case) (n0 n1 : Bytes), c.v = d.v ∧ c.A = d.A ∧ apply Ty.descAdd.code c.v c.A c.place = some n0 ∧
      apply Ty.descCall.code d.v d.A d.place = some n1 ∧
      (imm16 (insn n0) * 2 ^ 16 + imm16 (insn n1) : Int) = c.x .descAdd + 2 ^ 32 :=
  ⟨⟨⟨0, 0x1000, 0, 0, 0, 0, 0x1010, 0⟩, 0, [0x00#8, 0x00#8, 0x00#8, 0x91#8], by constructor <;> decide, by unfold Wide; decide⟩,
    ⟨⟨0, 0x1000, 0, 0, 0, 0, 0x1010, 0⟩, 0, [0x20#8, 0x00#8, 0x3f#8, 0xd6#8], by constructor <;> decide, by unfold Wide; decide⟩,
    [0xe0#8, 0xff#8, 0xbf#8, 0xd2#8], [0x00#8, 0xfe#8, 0x9f#8, 0xf2#8], rfl, rfl, by decide +kernel, by decide +kernel, by decide +kernel⟩

/-- Negative absolute 32-bit data, which the table allows, are refused. -/
theorem C96_absolute_counterexample :
    ∃ c : Case, Ty.abs32.Fits (c.x .abs32) ∧ 4 ≤ c.place.length ∧ apply Ty.abs32.code c.v c.A c.place = none :=
  ⟨⟨⟨0, 0, 0, 0, 0, 0, 0, 0⟩, -1, [0#8, 0#8, 0#8, 0#8], by constructor <;> decide, by unfold Wide; decide⟩,
    by constructor <;> decide, by decide, by decide +kernel⟩

/-! ### Examples -/

/-- `bl` backwards over 0x1000 bytes. -/
def exCall : Case := ⟨⟨0x11000, 0x10000, 0, 0, 0, 0, 0, 0⟩, 0, [0#8, 0#8, 0#8, 0x94#8], by constructor <;> decide, by unfold Wide; decide⟩
example : apply Ty.call26.code exCall.v exCall.A exCall.place = some [0x00#8, 0xfc#8, 0xff#8, 0x97#8] := by decide +kernel
example : exCall.x .call26 = -0x1000 := by decide

/-- `adrp x0` and `ldr x0, [x0, …]` for a symbol two pages and 0x238 bytes on. -/
def exPage : Case := ⟨⟨0x11ff4, 0x13238, 0, 0, 0, 0, 0, 0⟩, 0, [0#8, 0#8, 0#8, 0x90#8], by constructor <;> decide, by unfold Wide; decide⟩
def exLow : Case := ⟨⟨0x11ff8, 0x13238, 0, 0, 0, 0, 0, 0⟩, 0, [0#8, 0#8, 0x40#8, 0xf9#8], by constructor <;> decide, by unfold Wide; decide⟩
example : apply Ty.adrPage.code exPage.v exPage.A exPage.place = some [0#8, 0#8, 0#8, 0xd0#8] := by decide +kernel
example : apply (Ty.ldst .s8).code exLow.v exLow.A exLow.place = some [0#8, 0x1c#8, 0x41#8, 0xf9#8] := by decide +kernel
example : imm12 (insn [0#8, 0x1c#8, 0x41#8, 0xf9#8]) * 8 = 0x238 := by decide +kernel
example : Ty.descAdd.Form [0x00#8, 0x00#8, 0x00#8, 0x91#8] := by simp only [Ty.Form]; decide +kernel

end Nature.Reloc.Arm
