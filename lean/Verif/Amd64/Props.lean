import Verif.Amd64.Checked
import Verif.Amd64.Final
/-! C75: the machine code of an instruction is that instruction. -/
namespace Nature.Amd64
open Spec

/-- The shifts take their count in `cl`. -/
def countOk (i : Inst) : Prop :=
  [Name.sal, .sar, .shr].contains i.name = true → ∀ o r, i.ops = [o, .reg r] →
    r.idx = 1 ∧ r.high = false ∧ r.float = false

/-- The requests C75 is proved for.  Each line leaves out requests that are encoded wrongly, as the
counterexamples below show:
addresses (rsp or r12 as base without index; rbp or r13 as base with index and displacement);
a high byte register together with a register that needs a REX prefix;
`add` of a byte register to a byte of memory, and `xor` of an xmm register that is either 64 bits wide and
involves xmm8 to xmm15, or takes memory;
shifts whose count register is not `cl`. -/
structure Supported (i : Inst) : Prop where
  addr : ∀ o ∈ i.ops, goodAddr o = true
  high : (∃ r ∈ i.regs, r.high = true) → i.needRex = false
  row : excl i.name (i.ops.map Operand.key) = false ∨
    (i.name = .xor_ ∧ ∃ a b : Reg, i.ops = [.reg a, .reg b] ∧ a.float = true ∧ b.float = true ∧
      a.size = 8 ∧ b.size = 8 ∧ a.idx < 8 ∧ b.idx < 8)
  count : countOk i

/-- The 64-bit `xor` between low xmm registers. -/
theorem xorpd_low (a b : Reg) (ha : a.float = true) (hb : b.float = true) (sa : a.size = 8) (sb : b.size = 8)
    (la : a.idx < 8) (lb : b.idx < 8) (hha : a.high = false) (hhb : b.high = false) (t : List Nat) :
    encode ⟨.xor_, [.reg a, .reg b]⟩ = some [0x66, 0x0f, 0x57, 192 + a.idx * 8 + b.idx] ∧
    decode ([0x66, 0x0f, 0x57, 192 + a.idx * 8 + b.idx] ++ t) = some (⟨.xorpd, [.xmm a.idx, .xmm b.idx]⟩, t) := by
  obtain ⟨ai, as, af, ah⟩ := a
  obtain ⟨bi, bs, bf, bh⟩ := b
  simp only at *
  subst ha hb sa sb hha hhb
  have hsel : selectKey .xor_ [(.freg, 8), (.freg, 8)] false =
      some ⟨.xor_, 0, [0x66, 0x0f, 0x57], [.slashR], [(.xmm1s64, .reg), (.xmm2m64, .rm)]⟩ := by decide +kernel
  constructor
  · have e1 : ¬ 8 ≤ ai := by omega
    have e2 : ¬ 8 ≤ bi := by omega
    have m1 : ai % 8 = ai := Nat.mod_eq_of_lt la
    have m2 : bi % 8 = bi := Nat.mod_eq_of_lt lb
    simp [encode, select, Operand.key, Inst.regs, Operand.regs, hsel, fill, fillOps, fillOp, Inst.needRex, has64, e1, e2,
      Row.hasRex, buildExt, Fmt.bytes, Fmt.setModrm, Fmt.setRex, modrmByte, m1, m2]
    omega
  · have d1 : (192 + ai * 8 + bi) / 64 = 3 := by omega
    have d2 : (192 + ai * 8 + bi) / 8 % 8 = ai := by omega
    have d3 : (192 + ai * 8 + bi) % 8 = bi := by omega
    simp [decode, prefixes, isLegacy, isRex, Pfx.legacy, lookup, table2, sse, operands, Form.usesModrm, Spec.modrm, d1, d2, d3,
      Form.immSize, le, argsOf, argOf, rmArg, Pfx.r, Pfx.b]

/-- **C75** (partial: for `Supported` requests).  Whatever bytes the encoder emits for a request whose
operands exist, a processor reading them, with any bytes behind them, sees one of the instructions that
carry out the request, and stops exactly at the end of the emitted bytes. -/
theorem C75_encodes_partial (i : Inst) (bytes : List Nat) (h : encode i = some bytes) (hs : Sensible i)
    (hp : Supported i) (t : List Nat) :
    ∃ insn ∈ accepted i, decode (bytes ++ t) = some (insn, t) := by
  rcases hp.row with hx | ⟨hn, a, b, hops, fa, fb, sa, sb, la, lb⟩
  · simp only [encode, bind, Option.bind_eq_some_iff, pure, Option.some.injEq] at h
    obtain ⟨row, hrow, f, hf, rfl⟩ := h
    have hc := checked i.name (i.ops.map Operand.key) (i.regs.any Reg.high)
    have hsel : selectKey i.name (i.ops.map Operand.key) (i.regs.any Reg.high) = some row := hrow
    simp only [checkPath, hsel, hx, Bool.false_or, Bool.and_eq_true, Bool.not_eq_true', Bool.and_eq_false_iff,
      decide_eq_true_eq] at hc
    obtain ⟨⟨hhigh, hlen⟩, hok⟩ := hc
    unfold rowOk at hok
    dsimp only at hok
    split at hok
    · cases hok
    · rename_i m fs hm
      simp only [Bool.and_eq_true, Bool.or_eq_true, Bool.not_eq_true', Bool.and_eq_false_iff, beq_iff_eq,
        List.contains_iff_mem] at hok
      obtain ⟨⟨⟨⟨⟨⟨⟨⟨⟨hmn, hforms⟩, hopc⟩, hexts⟩, hpat⟩, hpfx⟩, hseg⟩, huse⟩, hcl⟩, hregs⟩ := hok
      have S : Setup row i m fs :=
        { forms := hforms
          opc := hopc
          exts := hexts
          pfx := hpfx
          seg := by
            intro o ho hk
            rcases hseg with hseg | hseg
            · exfalso
              have : Kind.seg ∈ (i.ops.map Operand.key).map (·.1) := by
                simp only [List.map_map, List.mem_map]
                exact ⟨o, ho, hk⟩
              rw [← List.contains_iff_mem] at this
              rw [hseg] at this; cases this
            · exact hseg
          use := huse
          ok := hs
          good := hp.addr
          high := by
            intro r hr hh
            have h1 := hp.high ⟨r, hr, hh⟩
            have h2 : i.regs.any Reg.high = true := List.any_eq_true.2 ⟨r, hr, hh⟩
            rw [h2] at hhigh
            simp only [Inst.on, h1, Bool.or_false]
            simpa using hhigh
          cl := by
            intro hpt hsR o1 r hio
            rcases hcl with hcl | hcl
            · rcases hcl with hcl | hcl
              · rw [hpt] at hcl; simp at hcl
              · rw [hsR] at hcl; cases hcl
            · exact hp.count (by simpa using hcl) o1 r hio
          regs := by
            intro hrg
            rcases hregs with (hregs | hregs) | hregs
            · rw [hrg] at hregs; cases hregs
            · exact Or.inl hregs
            · exact Or.inr hregs }
      exact ⟨_, List.mem_map.2 ⟨m, hmn, rfl⟩, decode_fill S hpat hf t⟩
  · obtain ⟨n, ops⟩ := i
    simp only at hn hops
    subst hn hops
    have hha : a.high = false := by
      have := (hs (.reg a) (by simp)).2
      cases hh : a.high
      · rfl
      · rw [(this hh).1] at fa; cases fa
    have hhb : b.high = false := by
      have := (hs (.reg b) (by simp)).2
      cases hh : b.high
      · rfl
      · rw [(this hh).1] at fb; cases fb
    have := xorpd_low a b fa fb sa sb la lb hha hhb t
    rw [this.1, Option.some.injEq] at h
    subst h
    refine ⟨_, ?_, this.2⟩
    simp [accepted, mnems, fwidth, Operand.key, fa, fb, sa, widths, argAt]

/-! ## The bytes are bytes -/

theorem mem_pass : ∀ (n : Nat) (l : List Row) (r : Row), r ∈ pass n l → r ∈ l
  | 0, l, r, h => by simpa [pass] using h
  | n + 1, [], r, h => by simp [pass] at h
  | n + 1, [a], r, h => by simpa [pass] using h
  | n + 1, a :: b :: l, r, h => by
    simp only [pass] at h
    split at h
    · rcases List.mem_cons.1 h with h | h
      · simp [h]
      · have := mem_pass n (a :: l) r h
        rcases List.mem_cons.1 this with h | h <;> simp [h]
    · rcases List.mem_cons.1 h with h | h
      · simp [h]
      · have := mem_pass n (b :: l) r h
        rcases List.mem_cons.1 this with h | h <;> simp [h]
theorem mem_sort : ∀ (n : Nat) (l : List Row) (r : Row), r ∈ sortRows n l → r ∈ l
  | 0, l, r, h => by simpa [sortRows] using h
  | n + 1, l, r, h => mem_pass _ _ _ (mem_sort n _ r h)
theorem select_mem {i : Inst} {r : Row} (h : select i = some r) : r ∈ rows := by
  have := List.mem_of_mem_head? (show r ∈ _ from h)
  have := mem_sort _ _ _ this
  simp only [leaf, List.mem_filter] at this
  exact this.1.1

/-- The numbers of a row are small enough, also after adding a register number to the opcode, which can
happen once. -/
def small (r : Row) : Bool := decide (r.pfx < 256) && r.opc.all (fun b => decide (b < 256)) &&
  !((r.ops.drop 1).map (·.2)).contains .plus &&
  (!((r.ops.map (·.2)).contains .plus) || r.opc.all (fun b => decide (b < 249)))
theorem rows_small : rows.all small = true := by decide +kernel

def FmtOk (f : Fmt) : Prop :=
  f.pfx < 256 ∧ (∀ b ∈ f.opc, b < 256) ∧ (∀ m, f.modrm = some m → m.mod < 4) ∧ (∀ s, f.sib = some s → s.scale < 4) ∧
  (∀ b ∈ f.disps, b < 256) ∧ (∀ b ∈ f.imms, b < 256)

theorem rexByte_lt (r : Rex) : rexByte r < 256 := by
  obtain ⟨w, r, x, b⟩ := r
  cases w <;> cases r <;> cases x <;> cases b <;> decide

theorem FmtOk.bytes {f : Fmt} (h : FmtOk f) : ∀ b ∈ f.bytes, b < 256 := by
  obtain ⟨h1, h2, h3, h4, h5, h6⟩ := h
  intro b hb
  simp only [Fmt.bytes, List.mem_append, Option.mem_toList, Option.map_eq_some_iff] at hb
  rcases hb with (((((hb | hb) | hb) | hb) | hb) | hb) | hb
  · split at hb
    · simp at hb
    · simp at hb; omega
  · obtain ⟨r, _, rfl⟩ := hb; exact rexByte_lt r
  · exact h2 b (List.takeWhile_subset _ hb)
  · obtain ⟨m, hm, rfl⟩ := hb
    have := h3 m hm
    unfold modrmByte; omega
  · obtain ⟨s, hm, rfl⟩ := hb
    have := h4 s hm
    unfold sibByte; omega
  · exact h5 b hb
  · exact h6 b hb

theorem int32Bytes_lt (d : Int) : ∀ b ∈ int32Bytes d, b < 256 := by
  intro b hb
  simp only [int32Bytes, List.mem_cons, List.not_mem_nil, or_false] at hb
  omega
theorem leBytes_lt : ∀ n v b, b ∈ leBytes n v → b < 256
  | 0, v, b, h => by simp [leBytes] at h
  | n + 1, v, b, h => by
    simp only [leBytes, List.mem_cons] at h
    rcases h with h | h
    · omega
    · exact leBytes_lt n _ b h

theorem buildExt_ok (f : Fmt) (e : Ext) (h : FmtOk f) : FmtOk (buildExt f e) := by
  obtain ⟨h1, h2, h3, h4, h5, h6⟩ := h
  have h3' : (f.modrm.getD {}).mod < 4 := by
    cases hm : f.modrm with
    | none => decide
    | some m => exact h3 m hm
  cases e <;> refine ⟨h1, h2, ?_, h4, h5, h6⟩ <;>
    first | exact h3 | (intro m hm; simp only [buildExt, Option.some.injEq] at hm; subst hm; exact h3')

theorem setModrm_ok {f : Fmt} {g : Modrm → Modrm} (h : FmtOk f) (hg : (g (f.modrm.getD {})).mod < 4) :
    FmtOk (f.setModrm g) := by
  obtain ⟨h1, h2, h3, h4, h5, h6⟩ := h
  refine ⟨h1, h2, ?_, h4, h5, h6⟩
  intro m hm
  simp only [Fmt.setModrm, Option.some.injEq] at hm
  subst hm; exact hg
theorem setRex_ok {f : Fmt} {on : Bool} {g : Rex → Rex} (h : FmtOk f) : FmtOk (f.setRex on g) := by
  unfold Fmt.setRex
  split
  · exact h
  · exact h
theorem disps_ok {f : Fmt} {d : List Nat} (h : FmtOk f) (hd : ∀ b ∈ d, b < 256) : FmtOk { f with disps := d } :=
  ⟨h.1, h.2.1, h.2.2.1, h.2.2.2.1, hd, h.2.2.2.2.2⟩
theorem imms_ok {f : Fmt} {d : List Nat} (h : FmtOk f) (hd : ∀ b ∈ d, b < 256) : FmtOk { f with imms := d } :=
  ⟨h.1, h.2.1, h.2.2.1, h.2.2.2.1, h.2.2.2.2.1, hd⟩
theorem sib_ok {f : Fmt} {s : Sib} (h : FmtOk f) (hs : s.scale < 4) : FmtOk { f with sib := some s } :=
  ⟨h.1, h.2.1, h.2.2.1, fun s' e => by simp only [Option.some.injEq] at e; subst e; exact hs, h.2.2.2.2⟩
theorem modrm_ok {f : Fmt} (h : FmtOk f) : (f.modrm.getD {}).mod < 4 := by
  cases hm : f.modrm with
  | none => decide
  | some m => exact h.2.2.1 m hm

theorem fillOp_ok (on sR : Bool) (f f' : Fmt) (e : Enc) (o : Operand) (h : FmtOk f) (ok : OperandOk o)
    (hpl : e = .plus → ∀ b ∈ f.opc, b < 249) (hf : fillOp on sR f e o = some f') : FmtOk f' := by
  have hm := modrm_ok h
  cases o with
  | reg r =>
    cases e with
    | rm => simp only [fillOp, Option.some.injEq] at hf; subst hf; exact setRex_ok (setModrm_ok h (by simp))
    | reg =>
      simp only [fillOp] at hf
      cases hmo : f.modrm with
      | none =>
        have hg : FmtOk { f with modrm := some { mod := 3 } } := by
          refine ⟨h.1, h.2.1, ?_, h.2.2.2⟩
          intro m hm'; simp only [Option.some.injEq] at hm'; subst hm'; simp
        simp only [hmo] at hf
        split at hf
        · simp only [Option.some.injEq] at hf; subst hf
          exact setRex_ok (setModrm_ok hg (modrm_ok hg))
        · simp only [Option.some.injEq] at hf; subst hf; exact hg
      | some m0 =>
        simp only [hmo] at hf
        split at hf
        · simp only [Option.some.injEq] at hf; subst hf
          exact setRex_ok (setModrm_ok h (modrm_ok h))
        · simp only [Option.some.injEq] at hf; subst hf; exact h
    | plus =>
      simp only [fillOp, Option.some.injEq] at hf; subst hf
      refine setRex_ok ⟨h.1, ?_, h.2.2⟩
      intro b hb
      have := hpl rfl
      cases ho : f.opc with
      | nil => simp [ho] at hb
      | cons o os =>
        simp only [ho, List.mem_cons] at hb this
        rcases hb with hb | hb
        · have := this o (Or.inl rfl); omega
        · have := this b (Or.inr hb); omega
    | imm => simp [fillOp] at hf
  | ind r s =>
    cases e with
    | rm =>
      simp only [fillOp, Option.some.injEq] at hf; subst hf
      refine setRex_ok (disps_ok (setModrm_ok h ?_) ?_)
      · dsimp only; split <;> decide
      · intro b hb; split at hb <;> simp at hb; omega
    | reg =>
      simp only [fillOp, Option.some.injEq] at hf
      cases hmo : f.modrm with
      | none =>
        have hg : FmtOk { f with modrm := some { mod := 1 } } := by
          refine ⟨h.1, h.2.1, ?_, h.2.2.2⟩
          intro m hm'; simp only [Option.some.injEq] at hm'; subst hm'; simp
        simp only [hmo] at hf; subst hf
        exact setRex_ok (setModrm_ok hg (modrm_ok hg))
      | some m0 =>
        simp only [hmo] at hf; subst hf
        exact setRex_ok (setModrm_ok h (modrm_ok h))
    | plus => simp [fillOp] at hf
    | imm => simp [fillOp] at hf
  | disp r d s =>
    cases e with
    | rm =>
      simp only [fillOp, Option.some.injEq] at hf; subst hf
      refine setRex_ok (disps_ok (setModrm_ok h ?_) ?_)
      · dsimp only; split <;> decide
      · intro b hb; exact int32Bytes_lt d b (List.mem_of_mem_take hb)
    | reg => simp [fillOp] at hf
    | plus => simp [fillOp] at hf
    | imm => simp [fillOp] at hf
  | rip d s =>
    cases e with
    | rm => simp only [fillOp, Option.some.injEq] at hf; subst hf; exact disps_ok (setModrm_ok h (by simp)) (int32Bytes_lt d)
    | reg => simp only [fillOp, Option.some.injEq] at hf; subst hf; exact disps_ok (setModrm_ok h (by simp)) (int32Bytes_lt d)
    | plus => simp only [fillOp, Option.some.injEq] at hf; subst hf; exact h
    | imm => simp only [fillOp, Option.some.injEq] at hf; subst hf; exact h
  | seg s d =>
    have hp : ∀ P, P < 256 → FmtOk { { { f with pfx := P }.setModrm (fun m => { m with mod := 0, rm := 4 }) with
        sib := some ⟨0, 4, 5⟩ } with disps := int32Bytes d } := fun P hP =>
      disps_ok (sib_ok (setModrm_ok ⟨hP, h.2⟩ (by simp)) (by simp)) (int32Bytes_lt d)
    cases s with
    | fs => cases e <;> simp only [fillOp, Option.some.injEq] at hf <;> subst hf <;> exact hp 0x64 (by decide)
    | gs => cases e <;> simp only [fillOp, Option.some.injEq] at hf <;> subst hf <;> exact hp 0x65 (by decide)
    | other => cases e <;> simp only [fillOp, Option.some.injEq] at hf <;> subst hf <;> exact hp f.pfx h.1
  | sib base index sc d s =>
    cases e with
    | rm =>
      simp only [fillOp, bind, Option.bind_eq_some_iff] at hf
      obtain ⟨k, hk, hf⟩ := hf
      have hk4 := (scaleEnc_spec hk).1
      cases base with
      | none =>
        simp only [Option.some.injEq] at hf; subst hf
        have h2 : FmtOk { { f.setModrm (fun m => { m with rm := 4, mod := 0 }) with sib := some ⟨k, ixOf index, 5⟩ } with
            disps := int32Bytes d } := disps_ok (sib_ok (setModrm_ok h (by simp)) hk4) (int32Bytes_lt d)
        exact setRex_ok h2
      | some b =>
        simp only [Option.some.injEq] at hf
        have h0 : FmtOk (({ f with sib := some ⟨k, ixOf index, b.idx⟩ } : Fmt).setRex on
          fun x => { x with x := decide (7 < ixOf index), b := decide (7 < b.idx) }) := setRex_ok (sib_ok h hk4)
        generalize (({ f with sib := some ⟨k, ixOf index, b.idx⟩ } : Fmt).setRex on
          fun x => { x with x := decide (7 < ixOf index), b := decide (7 < b.idx) }) = g at h0 hf
        have h1 : FmtOk (if d = 0 then g.setModrm fun m => { m with rm := 4, mod := 0 }
          else if -128 ≤ d ∧ d ≤ 127 then
            { (g.setModrm fun m => { m with rm := 4, mod := 1 }) with disps := [(d % 256).toNat] }
          else { (g.setModrm fun m => { m with rm := 4, mod := 2 }) with disps := int32Bytes d }) := by
          split
          · exact setModrm_ok h0 (by simp)
          · split
            · refine disps_ok (setModrm_ok h0 (by simp)) ?_
              intro b hb; simp at hb; omega
            · exact disps_ok (setModrm_ok h0 (by simp)) (int32Bytes_lt d)
        generalize (if d = 0 then g.setModrm fun m => { m with rm := 4, mod := 0 }
          else if -128 ≤ d ∧ d ≤ 127 then
            { (g.setModrm fun m => { m with rm := 4, mod := 1 }) with disps := [(d % 256).toNat] }
          else { (g.setModrm fun m => { m with rm := 4, mod := 2 }) with disps := int32Bytes d }) = g2 at h1 hf
        subst hf
        split
        · exact disps_ok (setModrm_ok h1 (by simp)) (by simp)
        · exact h1
    | reg => simp only [fillOp, Option.some.injEq] at hf; subst hf; exact h
    | plus => simp only [fillOp, Option.some.injEq] at hf; subst hf; exact h
    | imm => simp only [fillOp, Option.some.injEq] at hf; subst hf; exact h
  | u8 v =>
    have : f' = { f with imms := [v] } := by cases e <;> simpa [fillOp] using hf.symm
    subst this; exact imms_ok h (by simpa [OperandOk] using ok)
  | u16 v =>
    have : f' = { f with imms := leBytes 2 v } := by cases e <;> simpa [fillOp] using hf.symm
    subst this; exact imms_ok h (leBytes_lt _ _)
  | u32 v =>
    have : f' = { f with imms := leBytes 4 v } := by cases e <;> simpa [fillOp] using hf.symm
    subst this; exact imms_ok h (leBytes_lt _ _)
  | u64 v =>
    have : f' = { f with imms := leBytes 8 v } := by cases e <;> simpa [fillOp] using hf.symm
    subst this; exact imms_ok h (leBytes_lt _ _)
  | uint v =>
    have : f' = { f with imms := leBytes 4 v } := by cases e <;> simpa [fillOp] using hf.symm
    subst this; exact imms_ok h (leBytes_lt _ _)

theorem fillOps_ok (on sR : Bool) : ∀ (es : List (OpTy × Enc)) (os : List Operand) (f f' : Fmt), FmtOk f →
    (∀ o ∈ os, OperandOk o) → ((es.drop 1).map (·.2)).contains .plus = false →
    ((es.map (·.2)).contains .plus = true → ∀ b ∈ f.opc, b < 249) →
    fillOps on sR f es os = some f' → FmtOk f'
  | [], os, f, f', h, _, _, _, hf => by simp [fillOps] at hf; subst hf; exact h
  | e :: es, [], f, f', h, _, _, _, hf => by simp [fillOps] at hf; subst hf; exact h
  | (t, e) :: es, o :: os, f, f', h, hok, hd, hpl, hf => by
    obtain ⟨g, hg, hf⟩ := fillOps_cons _ _ _ _ _ _ _ _ _ hf
    have h' := fillOp_ok on sR f g e o h (hok o (by simp)) (by
      intro he; apply hpl; simp [he]) hg
    have hno : (es.map (·.2)).contains .plus = false := by simpa using hd
    refine fillOps_ok on sR es os g f' h' (fun o ho => hok o (by simp [ho])) ?_ (by rw [hno]; simp) hf
    cases hq : ((es.drop 1).map (·.2)).contains .plus
    · rfl
    · rw [List.contains_iff_mem, List.map_drop] at hq
      have := List.mem_of_mem_drop hq
      rw [← List.contains_iff_mem, hno] at this; cases this

/-- **C75** (the emitted numbers are bytes): nothing is cut off when they are stored in `uint8_t`. -/
theorem C75_bytes (i : Inst) (bytes : List Nat) (h : encode i = some bytes) (hs : Sensible i) :
    ∀ b ∈ bytes, b < 256 := by
  simp only [encode, bind, Option.bind_eq_some_iff, pure, Option.some.injEq] at h
  obtain ⟨row, hrow, f, hf, rfl⟩ := h
  have hsm := List.all_eq_true.1 rows_small row (select_mem hrow)
  simp only [small, Bool.and_eq_true, decide_eq_true_eq, List.all_eq_true, Bool.not_eq_true', Bool.or_eq_true] at hsm
  obtain ⟨⟨⟨h1, h2⟩, h3⟩, h4⟩ := hsm
  have fold : ∀ (l : List Ext) (f : Fmt), FmtOk f → FmtOk (l.foldl buildExt f) ∧ (l.foldl buildExt f).opc = f.opc := by
    intro l
    induction l with
    | nil => exact fun f h => ⟨h, rfl⟩
    | cons e l ih =>
      intro f h
      have := ih (buildExt f e) (buildExt_ok f e h)
      refine ⟨this.1, this.2.trans ?_⟩
      cases e <;> rfl
  have h0 : FmtOk { pfx := row.pfx, opc := row.opc } := ⟨h1, h2, by simp, by simp, by simp, by simp⟩
  have hfo := fold row.exts _ h0
  refine FmtOk.bytes (fillOps_ok _ _ _ _ _ _ ?_ hs h3 ?_ hf)
  · split
    · exact buildExt_ok _ _ hfo.1
    · exact hfo.1
  · intro hc b hb
    rcases h4 with h4 | h4
    · rw [hc] at h4; cases h4
    · refine h4 b ?_
      have e : (row.exts.foldl buildExt { pfx := row.pfx, opc := row.opc }).opc = row.opc := hfo.2
      rw [← e]
      split at hb <;> exact hb

/-! ## The hypotheses are met -/

/-- Registers used below. -/
def rax : Reg := { idx := 0, size := 8 }
def al : Reg := { idx := 0, size := 1 }
def ah : Reg := { idx := 4, size := 1, high := true }
def cl : Reg := { idx := 1, size := 1 }
def dl : Reg := { idx := 2, size := 1 }
def rsp : Reg := { idx := 4, size := 8 }
def rbp : Reg := { idx := 5, size := 8 }
def r9 : Reg := { idx := 9, size := 8 }
def r10 : Reg := { idx := 10, size := 8 }
def r12 : Reg := { idx := 12, size := 8 }
def r13 : Reg := { idx := 13, size := 8 }
def xmm (n s : Nat) : Reg := { idx := n, size := s, float := true }

/-- `mov r9, [rbp - 16]` -/
example : let i : Inst := ⟨.mov, [.reg r9, .disp rbp (-16) 8]⟩
    Sensible i ∧ Supported i ∧ encode i = some [0x4c, 0x8b, 0x4d, 0xf0] ∧
    decode ([0x4c, 0x8b, 0x4d, 0xf0] ++ [0xc3]) =
      some (⟨.mov, [.gpr 8 9, .mem none (.reg 5) none (-16) 8]⟩, [0xc3]) := by
  refine ⟨?_, ⟨?_, ?_, Or.inl (by decide +kernel), ?_⟩, by decide +kernel, by decide +kernel⟩
  · intro o ho
    simp only [List.mem_cons, List.not_mem_nil, or_false] at ho
    rcases ho with rfl | rfl
    · exact ⟨by decide, by decide⟩
    · exact ⟨⟨by decide, rfl, rfl, rfl⟩, by constructor <;> decide⟩
  · intro o ho
    simp only [List.mem_cons, List.not_mem_nil, or_false] at ho
    rcases ho with rfl | rfl <;> decide
  · intro h; simp [Inst.regs, Operand.regs, r9, rbp] at h
  · intro h; simp at h

/-- `lea r10, [rax + r13*4 + 1000]` -/
example : encode ⟨.lea, [.reg r10, .sib (some rax) (some r13) 4 1000 8]⟩
      = some [0x4e, 0x8d, 0x94, 0xa8, 0xe8, 3, 0, 0] ∧
    decode ([0x4e, 0x8d, 0x94, 0xa8, 0xe8, 3, 0, 0] ++ []) =
      some (⟨.lea, [.gpr 8 10, .mem none (.reg 0) (some (13, 4)) 1000 0]⟩, []) := by
  constructor <;> decide +kernel

/-! ## What goes wrong -/

/-- Does any reading of the emitted bytes carry out the request? -/
def Right (i : Inst) : Prop := ∃ bytes, encode i = some bytes ∧ ∃ insn ∈ accepted i, decode bytes = some (insn, [])

instance (i : Inst) : Decidable (Right i) :=
  match h : encode i with
  | none => isFalse fun ⟨b, hb, _⟩ => by rw [h] at hb; cases hb
  | some bytes =>
    if h' : ∃ insn ∈ accepted i, decode bytes = some (insn, []) then isTrue ⟨bytes, h, h'⟩
    else isFalse fun ⟨b, hb, hx⟩ => by
      rw [h, Option.some.injEq] at hb; subst hb; exact h' hx

/-- `lea rax, [r13 + r13*1 + 5]`, which the peephole pass asks for when it fuses `x*2+5` (peephole/
amd64.c:154-166): the 5 is lost. -/
theorem C75_lea_drops_displacement_counterexample :
    let i : Inst := ⟨.lea, [.reg rax, .sib (some r13) (some r13) 1 5 8]⟩
    encode i = some [0x4b, 0x8d, 0x44, 0x2d, 0] ∧
    decode [0x4b, 0x8d, 0x44, 0x2d, 0] = some (⟨.lea, [.gpr 8 0, .mem none (.reg 13) (some (13, 1)) 0 0]⟩, []) ∧
    ¬ Right i := by
  decide +kernel

/-- Copying eight bytes from `[r12 + 8]`: the byte that should say "no index" is missing, so the
displacement is taken for it. -/
theorem C75_r12_base_counterexample :
    let i : Inst := ⟨.mov, [.reg rax, .disp r12 8 8]⟩
    (encode i).isSome = true ∧ ¬ Right i := by
  decide +kernel

/-- `add byte [rax], dl`: the opcode byte is 0, which is never written. -/
theorem C75_add_memory_byte_counterexample :
    let i : Inst := ⟨.add, [.ind rax 1, .reg dl]⟩
    encode i = some [0x40, 0x10] ∧ ¬ Right i := by
  decide +kernel

/-- `shl rax, dl`: shifts by cl. -/
theorem C75_shift_count_counterexample :
    let i : Inst := ⟨.sal, [.reg rax, .reg dl]⟩
    (∃ b, encode i = some b ∧ decode b = some (⟨.shl, [.gpr 8 0, .gpr 1 1]⟩, [])) ∧ ¬ Right i := by
  refine ⟨⟨[0x48, 0xd3, 0xe0], by decide +kernel⟩, by decide +kernel⟩

/-- Clearing xmm8 before converting an integer to `f64` (native/amd64.c:879, 919) clears xmm0 instead. -/
theorem C75_xmm8_clears_xmm0_counterexample :
    let i : Inst := ⟨.xor_, [.reg (xmm 8 8), .reg (xmm 8 8)]⟩
    encode i = some [0x45, 0x66, 0x0f, 0x57, 0xc0] ∧
    decode [0x45, 0x66, 0x0f, 0x57, 0xc0] = some (⟨.xorpd, [.xmm 0, .xmm 0]⟩, []) ∧ ¬ Right i := by
  decide +kernel

/-- `xor` of an xmm register with a float in memory reads sixteen bytes. -/
theorem C75_xor_memory_counterexample :
    let i : Inst := ⟨.xor_, [.reg (xmm 1 4), .ind rax 4]⟩
    encode i = some [0x0f, 0x57, 0x08] ∧
    decode [0x0f, 0x57, 0x08] = some (⟨.xorps, [.xmm 1, .mem none (.reg 0) none 0 16]⟩, []) ∧ ¬ Right i := by
  decide +kernel

/-- `mov [r9], ah` stores spl. -/
theorem C75_high_byte_counterexample :
    let i : Inst := ⟨.mov, [.ind r9 1, .reg ah]⟩
    encode i = some [0x41, 0x88, 0x21] ∧
    decode [0x41, 0x88, 0x21] = some (⟨.mov, [.mem none (.reg 9) none 0 1, .gpr 1 4]⟩, []) ∧ ¬ Right i := by
  decide +kernel

end Nature.Amd64
