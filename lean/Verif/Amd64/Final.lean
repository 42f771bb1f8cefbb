import Verif.Amd64.Patterns
/-! The decoder reads back what a suitable row encodes. -/
namespace Nature.Amd64
open Spec

theorem map1 {l : List (OpTy × Enc)} {e : Enc} (h : l.map (·.2) = [e]) : ∃ t, l = [(t, e)] := by
  rcases l with _ | ⟨⟨t, e'⟩, _ | ⟨a, b⟩⟩ <;> simp at h
  exact ⟨t, by simp [h]⟩
theorem map2 {l : List (OpTy × Enc)} {e1 e2 : Enc} (h : l.map (·.2) = [e1, e2]) :
    ∃ t1 t2, l = [(t1, e1), (t2, e2)] := by
  rcases l with _ | ⟨⟨t, e'⟩, l⟩
  · simp at h
  · simp only [List.map_cons, List.cons.injEq] at h
    obtain ⟨t2, h2⟩ := map1 h.2
    exact ⟨t, t2, by simp [h.1, h2]⟩
theorem map3 {l : List (OpTy × Enc)} {e1 e2 e3 : Enc} (h : l.map (·.2) = [e1, e2, e3]) :
    ∃ t1 t2 t3, l = [(t1, e1), (t2, e2), (t3, e3)] := by
  rcases l with _ | ⟨⟨t, e'⟩, l⟩
  · simp at h
  · simp only [List.map_cons, List.cons.injEq] at h
    obtain ⟨t2, t3, h2⟩ := map2 h.2
    exact ⟨t, t2, t3, by simp [h.1, h2]⟩

theorem forms_nil {sR : Bool} {ops : List Operand} {ws : List Nat} {fs : List Form}
    (h : formsOk sR [] (ops.map Operand.key) ws fs = true) : ops = [] ∧ ws = [] ∧ fs = [] := by
  cases ops <;> cases ws <;> cases fs <;> simp [formsOk] at h ⊢
theorem forms_cons {sR : Bool} {t : OpTy} {e : Enc} {es : List (OpTy × Enc)} {ops : List Operand} {ws : List Nat}
    {fs : List Form} (h : formsOk sR ((t, e) :: es) (ops.map Operand.key) ws fs = true) :
    ∃ o os w ws' f fs', ops = o :: os ∧ ws = w :: ws' ∧ fs = f :: fs' ∧ formOk sR e o.key w f = true ∧
      formsOk sR es (os.map Operand.key) ws' fs' = true := by
  cases ops <;> cases ws <;> cases fs <;> simp only [formsOk, List.map_nil, List.map_cons, Bool.and_eq_true] at h <;>
    first | exact ⟨_, _, _, _, _, _, rfl, rfl, rfl, h.1, h.2⟩ | exact absurd h (by simp)

theorem plain_start (row : Row) (on : Bool) (hb : row.base = none) (imms : List Nat) :
    { start row on with imms := imms } = plain row on 0 false imms := by
  simp only [start, plain, hb]
  congr
  cases row.opc <;> rfl

/-- Reading back an instruction without ModRM. -/
theorem done_plain {row : Row} {i : Inst} {m : Mnem} {fs : List Form} (S : Setup row i m fs)
    (hrm : (row.ops.map (·.2)).contains .rm = false) (imms : List Nat) (v : Nat) (t : List Nat)
    (himm : le ((fs.map Form.immSize).sum) (imms ++ t) = some (v, t)) (args : List Arg)
    (k : Nat) (hk : k < 8) (hk' : k = 0 ∨ (row.ops.map (·.2)).contains .plus = true) (b : Bool)
    (hon : i.on row = false → b = false)
    (hargs : ∀ b0, (row.opc = [b0] ∨ (row.ops.map (·.2)).contains .plus = false) →
      argsOf (pOf row.pfx (rexOf row (i.on row) false false b)) (b0 + k) 0 (.direct 0) v fs = some args) :
    decode ((plain row (i.on row) k b imms).bytes ++ t) = some (⟨m, args⟩, t) :=
  decode_plain row m fs S.opc S.pfx (i.on row) Setup.w hrm k hk hk' b imms v hon (by rw [S.use, hrm]) t himm args hargs

/-- Reading back an instruction with ModRM. -/
theorem done_rm {row : Row} {i : Inst} {m : Mnem} {fs : List Form} (S : Setup row i m fs)
    (hrm : (row.ops.map (·.2)).contains .rm = true) {o : Operand} (ho : o ∈ i.ops) {q : RmPart}
    (hq : rmPart o = some q) (G : Nat) (rb : Bool) (imms : List Nat) (v : Nat) (hG : G < 8)
    (hG' : G = row.digit ∨ row.isSlashR = true) (hrb : i.on row = false → rb = false) (t : List Nat)
    (himm : le ((fs.map Form.immSize).sum) (imms ++ t) = some (v, t)) (args : List Arg)
    (hargs : ∀ opc, argsOf (pOf (segPfx row.pfx o) (rexOf row (i.on row) rb q.x q.b)) opc
      ((if rb then 8 else 0) + G) (rmOf o) v fs = some args) :
    decode ((withRm row (i.on row) o q G rb imms).bytes ++ t) = some (⟨m, args⟩, t) :=
  decode_withRm row m fs S.opc S.pfx (i.on row) Setup.w o q hq (S.ok o ho) (S.good o ho) (S.seg o ho) G rb imms v hG hG'
    (fun h => ⟨hrb h, part_off h ho hq⟩) (by rw [S.use, hrm]) t himm args hargs

theorem args1 {p : Pfx} {opc reg : Nat} {rm : Rm} {v : Nat} {f1 : Form} {a1 : Arg}
    (h1 : argOf p opc reg rm v f1 = some a1) : argsOf p opc reg rm v [f1] = some [a1] := by
  simp [argsOf, h1]
theorem args2 {p : Pfx} {opc reg : Nat} {rm : Rm} {v : Nat} {f1 f2 : Form} {a1 a2 : Arg}
    (h1 : argOf p opc reg rm v f1 = some a1) (h2 : argOf p opc reg rm v f2 = some a2) :
    argsOf p opc reg rm v [f1, f2] = some [a1, a2] := by
  simp [argsOf, h1, h2]
theorem args3 {p : Pfx} {opc reg : Nat} {rm : Rm} {v : Nat} {f1 f2 f3 : Form} {a1 a2 a3 : Arg}
    (h1 : argOf p opc reg rm v f1 = some a1) (h2 : argOf p opc reg rm v f2 = some a2)
    (h3 : argOf p opc reg rm v f3 = some a3) : argsOf p opc reg rm v [f1, f2, f3] = some [a1, a2, a3] := by
  simp [argsOf, h1, h2, h3]

theorem le0 (t : List Nat) : le 0 ([] ++ t) = some (0, t) := rfl

theorem reg_bits (n : Nat) (h : n < 16) : (if decide (7 < n) = true then 8 else 0) + n % 8 = n := by
  by_cases h7 : 7 < n <;> simp [h7] <;> omega

/-- The core: all nine patterns. -/
theorem decode_fill {row : Row} {i : Inst} {m : Mnem} {fs : List Form} (S : Setup row i m fs)
    (hp : row.ops.map (·.2) ∈ patterns) {f : Fmt} (hf : fill row i = some f) (t : List Nat) :
    decode (f.bytes ++ t) =
      some (⟨m, List.zipWith argAt (widths i.name (i.ops.map Operand.key)) i.ops⟩, t) := by
  rw [fill_eq row i S.exts] at hf
  have hforms := S.forms
  generalize hws : widths i.name (i.ops.map Operand.key) = ws at hforms
  have hex := S.exts
  simp only [extsOk, Bool.and_eq_true, decide_eq_true_eq] at hex
  have hdig : row.digit < 8 := hex.1.1.1.2
  have hnone : (row.ops.map (·.2)).contains .rm = false → row.base = none := by
    intro h; have := hex.2; rw [h] at this; simpa using this
  have hsome : (row.ops.map (·.2)).contains .reg = true → row.base = some { reg := row.digit } := by
    intro h
    have h1 := hex.1.2
    rw [h] at h1
    rcases hex.1.1.2 with h2 | h2
    · rw [h2] at h1; simp at h1
    · exact h2
  have memr : ∀ r, Operand.reg r ∈ i.ops → r ∈ i.regs := fun r h =>
    List.mem_flatMap.2 ⟨_, h, by simp [Operand.regs]⟩
  have st_rex : ∀ r, (start row (i.on row)).rex = some r → r.x = false ∧ r.b = false := by
    intro r h
    cases ho : i.on row
    · simp [start, ho] at h
    · simp [start, ho] at h; subst h; exact ⟨rfl, rfl⟩
  -- the `rm` operand placed in the start state
  have place : ∀ o w fm, o ∈ i.ops → formOk row.isSlashR .rm o.key w fm = true → ∀ rb x b opc reg v,
      argOf (pOf (segPfx row.pfx o) (rexOf row (i.on row) rb x b)) opc reg (rmOf o) v fm = some (argAt w o) ∧
      fm.immSize = 0 ∧ isRm o = true := by
    intro o w fm ho hfm rb x b opc reg v
    have := rm_op row.isSlashR o w fm hfm (S.ok o ho) (pOf (segPfx row.pfx o) (rexOf row (i.on row) rb x b)) opc reg v
      (fun r h => S.fits (memr r (h ▸ ho)) _ _ _ _)
      (segPfx_table row.pfx o S.pfx (S.ok o ho) (S.seg o ho) _).2.2.2
    exact ⟨this.1, this.2.1, this.2.2.2⟩
  have rmFill : ∀ o g, isRm o = true → fillOp (i.on row) row.isSlashR (start row (i.on row)) .rm o = some g →
      ∃ q, rmPart o = some q ∧ g = withRm row (i.on row) o q row.digit false [] := by
    intro o g ho h
    obtain ⟨q, hq, rfl⟩ := fillOp_rm _ _ _ g o ho rfl rfl st_rex h
    refine ⟨q, hq, ?_⟩
    cases hon : i.on row <;> simp [withRm, start, Row.digit]
  have plusFill : ∀ r g, (row.ops.map (·.2)).contains .rm = false →
      fillOp (i.on row) row.isSlashR (start row (i.on row)) .plus (.reg r) = some g →
      g = plain row (i.on row) (r.idx % 8) (decide (7 < r.idx)) [] := by
    intro r g hrm hg
    simp only [fillOp, Option.some.injEq] at hg; subst hg
    cases hon : i.on row <;> simp [start, plain, hnone hrm, Fmt.setRex] <;> cases row.opc <;> rfl
  have plusArg : ∀ r b0, r ∈ i.regs → RegOk r → (row.ops.map (·.2)).contains .plus = true →
      (row.opc = [b0] ∨ (row.ops.map (·.2)).contains .plus = false) →
      (pOf row.pfx (rexOf row (i.on row) false false (decide (7 < r.idx)))).b + (b0 + r.idx % 8) % 8 = r.idx := by
    intro r b0 hr hok hc hb
    have hb : row.opc = [b0] := by
      rcases hb with h | h
      · exact h
      · rw [hc] at h; cases h
    have h8 : b0 % 8 = 0 := by
      have := S.opc
      simp only [opcOk, hb, hc, Bool.and_eq_true, Bool.not_true, Bool.false_or, decide_eq_true_eq] at this
      exact this.2.2
    have hbits := rexOf_bits row (i.on row) false false (decide (7 < r.idx)) Setup.w (fun h => ⟨rfl, rfl, by
      have := small_idx (off_small h hr); simp; omega⟩)
    rw [pOf_b, hbits]
    have := reg_bits r.idx hok.1
    have e : (b0 + r.idx % 8) % 8 = r.idx % 8 := by omega
    rw [e]; exact this
  have regRm : ∀ r o g g2, row.isSlashR = true → (row.ops.map (·.2)).contains .reg = true → isRm o = true →
      fillOp (i.on row) row.isSlashR (start row (i.on row)) .reg (.reg r) = some g →
      fillOp (i.on row) row.isSlashR g .rm o = some g2 →
      ∃ q, rmPart o = some q ∧ g2 = withRm row (i.on row) o q (r.idx % 8) (decide (7 < r.idx)) [] := by
    intro r o g g2 hsR hrg ho hg hg2
    have hg' := fillOp_reg _ _ _ _ r _ (show (start row (i.on row)).modrm = some { reg := row.digit } from hsome hrg) hg
    rw [hsR] at hg'
    simp only [if_true] at hg'
    subst hg'
    obtain ⟨q, hq, rfl⟩ := fillOp_rm _ _ _ g2 o ho rfl rfl (by
      intro x hx
      cases hon : i.on row
      · simp [start, hon] at hx
      · simp [start, hon] at hx; subst hx; exact ⟨rfl, rfl⟩) hg2
    refine ⟨q, hq, ?_⟩
    cases hon : i.on row <;> simp [withRm, start]
  simp only [patterns, List.mem_cons, List.not_mem_nil, or_false] at hp
  rcases hp with hp | hp | hp | hp | hp | hp | hp | hp | hp
  · -- no operands
    have hops : row.ops = [] := by simpa using hp
    rw [hops] at hforms hf
    obtain ⟨hio, rfl, rfl⟩ := forms_nil hforms
    rw [hio] at hf ⊢
    simp only [fillOps, Option.some.injEq] at hf
    subst hf
    have hrm : (row.ops.map (·.2)).contains .rm = false := by rw [hp]; rfl
    rw [show start row (i.on row) = { start row (i.on row) with imms := [] } from rfl, plain_start _ _ (hnone hrm)]
    exact done_plain S hrm [] 0 t (le0 t) [] 0 (by decide) (Or.inl rfl) false (fun _ => rfl) (fun _ _ => rfl)
  · -- imm
    obtain ⟨t1, hops⟩ := map1 hp
    rw [hops] at hforms hf
    obtain ⟨o1, os, w1, ws', f1, fs', hio, rfl, rfl, h1, hrest⟩ := forms_cons hforms
    obtain ⟨rfl, rfl, rfl⟩ := forms_nil hrest
    rw [hio] at hf ⊢
    obtain ⟨g, hg, hf⟩ := fillOps_cons _ _ _ _ _ _ _ _ _ hf
    simp only [fillOps, Option.some.injEq] at hf; subst hf
    have I := imm_op (i.on row) row.isSlashR (start row (i.on row)) o1 w1 f1 h1 (S.ok o1 (by simp [hio]))
    rw [I.1, Option.some.injEq] at hg; subst hg
    have hrm : (row.ops.map (·.2)).contains .rm = false := by rw [hp]; rfl
    rw [plain_start _ _ (hnone hrm)]
    exact done_plain S hrm _ (immVal o1) t (by simpa using I.2.1 t) _ 0 (by decide) (Or.inl rfl) false (fun _ => rfl)
      (fun _ _ => args1 (I.2.2.1 _ _ _ _))
  · -- plus
    obtain ⟨t1, hops⟩ := map1 hp
    rw [hops] at hforms hf
    obtain ⟨o1, os, w1, ws', f1, fs', hio, rfl, rfl, h1, hrest⟩ := forms_cons hforms
    obtain ⟨rfl, rfl, rfl⟩ := forms_nil hrest
    rw [hio] at hf ⊢
    obtain ⟨g, hg, hf⟩ := fillOps_cons _ _ _ _ _ _ _ _ _ hf
    simp only [fillOps, Option.some.injEq] at hf; subst hf
    obtain ⟨r, rfl, hi0, hu, ha⟩ := plus_op row.isSlashR o1 w1 f1 h1 (S.ok o1 (by simp [hio]))
    have hrm : (row.ops.map (·.2)).contains .rm = false := by rw [hp]; rfl
    have hr := memr r (by simp [hio])
    have hok : RegOk r := S.ok (.reg r) (by simp [hio])
    have hg' := plusFill r g hrm hg
    subst hg'
    have hc : (row.ops.map (·.2)).contains .plus = true := by rw [hp]; rfl
    refine done_plain S hrm [] 0 t (by simpa [hi0] using le0 t) _ _ (Nat.mod_lt _ (by decide)) (Or.inr hc) _
      (fun h => by have := small_idx (off_small h hr); simp; omega) (fun b0 hb => args1 (ha _ _ _ _ _ (S.fits hr _ _ _ _) ?_))
    exact plusArg r b0 hr hok hc hb
  · -- plus, imm
    obtain ⟨t1, t2, hops⟩ := map2 hp
    rw [hops] at hforms hf
    obtain ⟨o1, os, w1, ws', f1, fs', hio, rfl, rfl, h1, hrest⟩ := forms_cons hforms
    obtain ⟨o2, os2, w2, ws2, f2, fs2, rfl, rfl, rfl, h2, hrest⟩ := forms_cons hrest
    obtain ⟨rfl, rfl, rfl⟩ := forms_nil hrest
    rw [hio] at hf ⊢
    obtain ⟨g, hg, hf⟩ := fillOps_cons _ _ _ _ _ _ _ _ _ hf
    obtain ⟨g2, hg2, hf⟩ := fillOps_cons _ _ _ _ _ _ _ _ _ hf
    simp only [fillOps, Option.some.injEq] at hf; subst hf
    obtain ⟨r, rfl, hi0, hu, ha⟩ := plus_op row.isSlashR o1 w1 f1 h1 (S.ok o1 (by simp [hio]))
    have I := imm_op (i.on row) row.isSlashR g o2 w2 f2 h2 (S.ok o2 (by simp [hio]))
    rw [I.1, Option.some.injEq] at hg2; subst hg2
    have hrm : (row.ops.map (·.2)).contains .rm = false := by rw [hp]; rfl
    have hr := memr r (by simp [hio])
    have hok : RegOk r := S.ok (.reg r) (by simp [hio])
    have hg' := plusFill r g hrm hg
    subst hg'
    have hc : (row.ops.map (·.2)).contains .plus = true := by rw [hp]; rfl
    refine done_plain S hrm (immBytes o2) (immVal o2) t (by simpa [hi0] using I.2.1 t) _ _ (Nat.mod_lt _ (by decide))
      (Or.inr hc) _ (fun h => by have := small_idx (off_small h hr); simp; omega)
      (fun b0 hb => args2 (ha _ _ _ _ _ (S.fits hr _ _ _ _) ?_) (I.2.2.1 _ _ _ _))
    exact plusArg r b0 hr hok hc hb
  · -- rm
    obtain ⟨t1, hops⟩ := map1 hp
    rw [hops] at hforms hf
    obtain ⟨o1, os, w1, ws', f1, fs', hio, rfl, rfl, h1, hrest⟩ := forms_cons hforms
    obtain ⟨rfl, rfl, rfl⟩ := forms_nil hrest
    rw [hio] at hf ⊢
    obtain ⟨g, hg, hf⟩ := fillOps_cons _ _ _ _ _ _ _ _ _ hf
    simp only [fillOps, Option.some.injEq] at hf; subst hf
    have hrm : (row.ops.map (·.2)).contains .rm = true := by rw [hp]; rfl
    have ho : o1 ∈ i.ops := by simp [hio]
    have P := place o1 w1 f1 ho h1
    obtain ⟨q, hq, rfl⟩ := rmFill o1 g (P false false false 0 0 0).2.2 hg
    exact done_rm S hrm ho hq _ _ [] 0 hdig (Or.inl rfl) (fun _ => rfl) t
      (by simpa [(P false false false 0 0 0).2.1] using le0 t) _ (fun opc => args1 (P _ _ _ _ _ _).1)
  · -- rm, imm
    obtain ⟨t1, t2, hops⟩ := map2 hp
    rw [hops] at hforms hf
    obtain ⟨o1, os, w1, ws', f1, fs', hio, rfl, rfl, h1, hrest⟩ := forms_cons hforms
    obtain ⟨o2, os2, w2, ws2, f2, fs2, rfl, rfl, rfl, h2, hrest⟩ := forms_cons hrest
    obtain ⟨rfl, rfl, rfl⟩ := forms_nil hrest
    rw [hio] at hf ⊢
    obtain ⟨g, hg, hf⟩ := fillOps_cons _ _ _ _ _ _ _ _ _ hf
    obtain ⟨g2, hg2, hf⟩ := fillOps_cons _ _ _ _ _ _ _ _ _ hf
    simp only [fillOps, Option.some.injEq] at hf; subst hf
    have I := imm_op (i.on row) row.isSlashR g o2 w2 f2 h2 (S.ok o2 (by simp [hio]))
    rw [I.1, Option.some.injEq] at hg2; subst hg2
    have hrm : (row.ops.map (·.2)).contains .rm = true := by rw [hp]; rfl
    have ho : o1 ∈ i.ops := by simp [hio]
    have P := place o1 w1 f1 ho h1
    obtain ⟨q, hq, rfl⟩ := rmFill o1 g (P false false false 0 0 0).2.2 hg
    exact done_rm S hrm ho hq _ _ (immBytes o2) (immVal o2) hdig (Or.inl rfl) (fun _ => rfl) t
      (by simpa [(P false false false 0 0 0).2.1] using I.2.1 t) _
      (fun opc => args2 (P _ _ _ _ _ _).1 (I.2.2.1 _ _ _ _))
  · -- rm, reg
    obtain ⟨t1, t2, hops⟩ := map2 hp
    rw [hops] at hforms hf
    obtain ⟨o1, os, w1, ws', f1, fs', hio, rfl, rfl, h1, hrest⟩ := forms_cons hforms
    obtain ⟨o2, os2, w2, ws2, f2, fs2, rfl, rfl, rfl, h2, hrest⟩ := forms_cons hrest
    obtain ⟨rfl, rfl, rfl⟩ := forms_nil hrest
    rw [hio] at hf ⊢
    obtain ⟨g, hg, hf⟩ := fillOps_cons _ _ _ _ _ _ _ _ _ hf
    obtain ⟨g2, hg2, hf⟩ := fillOps_cons _ _ _ _ _ _ _ _ _ hf
    simp only [fillOps, Option.some.injEq] at hf; subst hf
    have hrm : (row.ops.map (·.2)).contains .rm = true := by rw [hp]; rfl
    have ho : o1 ∈ i.ops := by simp [hio]
    have P := place o1 w1 f1 ho h1
    obtain ⟨q, hq, rfl⟩ := rmFill o1 g (P false false false 0 0 0).2.2 hg
    obtain ⟨r, rfl, hi0, hR, hCL⟩ := reg_op row.isSlashR o2 w2 f2 h2 (S.ok o2 (by simp [hio]))
    have hr := memr r (by simp [hio])
    have hok : RegOk r := S.ok (.reg r) (by simp [hio])
    have hg' := fillOp_reg _ _ _ _ r _ rfl hg2
    cases hsR : row.isSlashR
    · rw [hsR] at hg'
      simp only [Bool.false_eq_true, if_false] at hg'
      subst hg'
      exact done_rm S hrm ho hq _ _ [] 0 hdig (Or.inl rfl) (fun _ => rfl) t
        (by simpa [(P false false false 0 0 0).2.1, hi0] using le0 t) _
        (fun opc => args2 (P _ _ _ _ _ _).1 (hCL hsR (S.cl hp hsR _ _ hio) _ _ _ _ _))
    · rw [hsR] at hg'
      have hg'' : g2 = withRm row (i.on row) o1 q (r.idx % 8) (decide (7 < r.idx)) [] := by
        rw [hg']
        cases hon : i.on row <;> simp [withRm]
      subst hg''
      refine done_rm S hrm ho hq _ _ [] 0 (Nat.mod_lt _ (by decide)) (Or.inr hsR)
        (fun h => by have := small_idx (off_small h hr); simp; omega) t
        (by simpa [(P false false false 0 0 0).2.1, hi0] using le0 t) _
        (fun opc => args2 (P _ _ _ _ _ _).1 ?_)
      rw [reg_bits r.idx hok.1]
      exact hR hsR _ _ _ _ (S.fits hr _ _ _ _)
  · -- reg, rm
    obtain ⟨t1, t2, hops⟩ := map2 hp
    rw [hops] at hforms hf
    obtain ⟨o1, os, w1, ws', f1, fs', hio, rfl, rfl, h1, hrest⟩ := forms_cons hforms
    obtain ⟨o2, os2, w2, ws2, f2, fs2, rfl, rfl, rfl, h2, hrest⟩ := forms_cons hrest
    obtain ⟨rfl, rfl, rfl⟩ := forms_nil hrest
    rw [hio] at hf ⊢
    obtain ⟨g, hg, hf⟩ := fillOps_cons _ _ _ _ _ _ _ _ _ hf
    obtain ⟨g2, hg2, hf⟩ := fillOps_cons _ _ _ _ _ _ _ _ _ hf
    simp only [fillOps, Option.some.injEq] at hf; subst hf
    have hrm : (row.ops.map (·.2)).contains .rm = true := by rw [hp]; rfl
    have hrg : (row.ops.map (·.2)).contains .reg = true := by rw [hp]; rfl
    have hsR : row.isSlashR = true := by
      rcases S.regs hrg with h | h
      · exact h
      · rw [hp] at h; cases h
    have ho : o2 ∈ i.ops := by simp [hio]
    have P := place o2 w2 f2 ho h2
    obtain ⟨r, rfl, hi0, hR, hCL⟩ := reg_op row.isSlashR o1 w1 f1 h1 (S.ok o1 (by simp [hio]))
    have hr := memr r (by simp [hio])
    have hok : RegOk r := S.ok (.reg r) (by simp [hio])
    obtain ⟨q, hq, rfl⟩ := regRm r o2 g g2 hsR hrg (P false false false 0 0 0).2.2 hg hg2
    refine done_rm S hrm ho hq _ _ [] 0 (Nat.mod_lt _ (by decide)) (Or.inr hsR)
      (fun h => by have := small_idx (off_small h hr); simp; omega) t
      (by simpa [(P false false false 0 0 0).2.1, hi0] using le0 t) _
      (fun opc => args2 ?_ (P _ _ _ _ _ _).1)
    rw [reg_bits r.idx hok.1]
    exact hR hsR _ _ _ _ (S.fits hr _ _ _ _)
  · -- reg, rm, imm
    obtain ⟨t1, t2, t3, hops⟩ := map3 hp
    rw [hops] at hforms hf
    obtain ⟨o1, os, w1, ws', f1, fs', hio, rfl, rfl, h1, hrest⟩ := forms_cons hforms
    obtain ⟨o2, os2, w2, ws2, f2, fs2, rfl, rfl, rfl, h2, hrest⟩ := forms_cons hrest
    obtain ⟨o3, os3, w3, ws3, f3, fs3, rfl, rfl, rfl, h3, hrest⟩ := forms_cons hrest
    obtain ⟨rfl, rfl, rfl⟩ := forms_nil hrest
    rw [hio] at hf ⊢
    obtain ⟨g, hg, hf⟩ := fillOps_cons _ _ _ _ _ _ _ _ _ hf
    obtain ⟨g2, hg2, hf⟩ := fillOps_cons _ _ _ _ _ _ _ _ _ hf
    obtain ⟨g3, hg3, hf⟩ := fillOps_cons _ _ _ _ _ _ _ _ _ hf
    simp only [fillOps, Option.some.injEq] at hf; subst hf
    have I := imm_op (i.on row) row.isSlashR g2 o3 w3 f3 h3 (S.ok o3 (by simp [hio]))
    rw [I.1, Option.some.injEq] at hg3; subst hg3
    have hrm : (row.ops.map (·.2)).contains .rm = true := by rw [hp]; rfl
    have hrg : (row.ops.map (·.2)).contains .reg = true := by rw [hp]; rfl
    have hsR : row.isSlashR = true := by
      rcases S.regs hrg with h | h
      · exact h
      · rw [hp] at h; cases h
    have ho : o2 ∈ i.ops := by simp [hio]
    have P := place o2 w2 f2 ho h2
    obtain ⟨r, rfl, hi0, hR, hCL⟩ := reg_op row.isSlashR o1 w1 f1 h1 (S.ok o1 (by simp [hio]))
    have hr := memr r (by simp [hio])
    have hok : RegOk r := S.ok (.reg r) (by simp [hio])
    obtain ⟨q, hq, rfl⟩ := regRm r o2 g g2 hsR hrg (P false false false 0 0 0).2.2 hg hg2
    refine done_rm S hrm ho hq _ _ (immBytes o3) (immVal o3) (Nat.mod_lt _ (by decide)) (Or.inr hsR)
      (fun h => by have := small_idx (off_small h hr); simp; omega) t
      (by simpa [(P false false false 0 0 0).2.1, hi0] using I.2.1 t) _
      (fun opc => args3 ?_ (P _ _ _ _ _ _).1 (I.2.2.1 _ _ _ _))
    rw [reg_bits r.idx hok.1]
    exact hR hsR _ _ _ _ (S.fits hr _ _ _ _)

end Nature.Amd64
