import Verif.Branch.Lemmas
/-! Instructions that refer to a symbol: where their displacement is. -/
namespace Nature.Branch
open Nature.Amd64 Nature.Amd64.Spec Spec

theorem select_under {i : Inst} {r : Row} (h : select i = some r) :
    r ∈ rows ∧ Row.under r.ops (i.ops.map Operand.key) = true := by
  have := List.mem_of_mem_head? (show r ∈ _ from h)
  have := mem_sort _ _ _ this
  simp only [leaf, List.mem_filter, Bool.and_eq_true] at this
  exact ⟨this.1.1, this.1.2.2⟩

/-- Addresses relative to rip or a segment are always in ModRM.rm, and immediates are always last. -/
def placed (r : Row) : Bool :=
  (r.ops.all fun (t, e) => !((lowToHigh t).any fun k => k.1 == .rip || k.1 == .seg) || e == .rm) &&
  (r.ops.dropLast.all fun (t, _) => !((lowToHigh t).any fun k => [Kind.u8, .u16, .u32, .u64, .uint].contains k.1))
theorem rows_placed : rows.all placed = true := by decide +kernel

theorem under_get : ∀ (es : List (OpTy × Enc)) (ks : List Key) (j : Nat) (k : Key), Row.under es ks = true →
    ks[j]? = some k → ∃ t e, es[j]? = some (t, e) ∧ k ∈ lowToHigh t
  | [], [], j, k, _, h => by simp at h
  | [], _ :: _, j, k, hu, h => by simp [Row.under] at hu
  | _ :: _, [], j, k, hu, h => by simp at h
  | (t, e) :: es, k' :: ks, 0, k, hu, h => by
    simp only [Row.under, Bool.and_eq_true] at hu
    simp only [List.getElem?_cons_zero, Option.some.injEq] at h; subst h
    exact ⟨t, e, rfl, by simpa using hu.1⟩
  | (t, e) :: es, k' :: ks, j + 1, k, hu, h => by
    simp only [Row.under, Bool.and_eq_true] at hu
    simpa using under_get es ks j k hu.2 (by simpa using h)
theorem under_length : ∀ (es : List (OpTy × Enc)) (ks : List Key), Row.under es ks = true → es.length = ks.length
  | [], [], _ => rfl
  | [], _ :: _, hu => by simp [Row.under] at hu
  | _ :: _, [], hu => by simp [Row.under] at hu
  | (t, e) :: es, k' :: ks, hu => by
    simp only [Row.under, Bool.and_eq_true] at hu
    simp [under_length es ks hu.2]

/-! ## Displacements pass through -/

def putD (D : List Nat) (f : Fmt) : Fmt := { f with disps := D }

theorem fillOp_putD (on sR : Bool) (f : Fmt) (e : Enc) (o : Operand) (D : List Nat) (h : isPlain o = true) :
    fillOp on sR (putD D f) e o = (fillOp on sR f e o).map (putD D) := by
  cases o with
  | reg r =>
    cases e with
    | reg => cases sR <;> cases on <;> cases hm : f.modrm <;> simp [fillOp, putD, Fmt.setRex, Fmt.setModrm, hm]
    | rm => cases on <;> rfl
    | plus => cases on <;> rfl
    | imm => rfl
  | u8 v => cases e <;> rfl
  | u16 v => cases e <;> rfl
  | u32 v => cases e <;> rfl
  | u64 v => cases e <;> rfl
  | uint v => simp [isPlain] at h
  | ind r s => simp [isPlain] at h
  | disp r d s => simp [isPlain] at h
  | sib b i sc d s => simp [isPlain] at h
  | rip d s => simp [isPlain] at h
  | seg s d => simp [isPlain] at h

theorem fillOps_putD (on sR : Bool) (D : List Nat) : ∀ (es : List (OpTy × Enc)) (os : List Operand) (f : Fmt),
    (∀ o ∈ os, isPlain o = true) → fillOps on sR (putD D f) es os = (fillOps on sR f es os).map (putD D)
  | [], os, f, _ => by simp [fillOps]
  | e :: es, [], f, _ => by simp [fillOps]
  | (t, e) :: es, o :: os, f, h => by
    simp only [fillOps]
    rw [fillOp_putD on sR f e o D (h o (by simp))]
    cases fillOp on sR f e o with
    | none => rfl
    | some g => exact fillOps_putD on sR D es os g (fun x hx => h x (by simp [hx]))

theorem setDisp_plain (d : Int) (o : Operand) (h : isPlain o = true) : setDisp d o = o := by
  cases o <;> first | rfl | simp [isPlain] at h

theorem fillOp_hole (on sR : Bool) (f : Fmt) (o : Operand) (d : Int) (h : (∃ s, o = .rip 0 s) ∨ o = .seg .fs 0) :
    fillOp on sR f .rm (setDisp d o) = (fillOp on sR f .rm o).map (putD (int32Bytes d)) ∧
    ∀ g, fillOp on sR f .rm o = some g → g.disps = int32Bytes 0 := by
  rcases h with ⟨s, rfl⟩ | rfl
  · refine ⟨rfl, fun g hg => ?_⟩
    simp only [fillOp, Option.some.injEq] at hg; subst hg; rfl
  · refine ⟨rfl, fun g hg => ?_⟩
    simp only [fillOp, Option.some.injEq] at hg; subst hg; rfl

theorem fillOps_disps (on sR : Bool) : ∀ (es : List (OpTy × Enc)) (os : List Operand) (f g : Fmt),
    (∀ o ∈ os, isPlain o = true) → fillOps on sR f es os = some g → g.disps = f.disps := by
  intro es os f g h hg
  have := fillOps_putD on sR f.disps es os f h
  rw [show putD f.disps f = f from rfl, hg] at this
  simp only [Option.map_some, Option.some.injEq] at this
  rw [this]; rfl

theorem fillOps_hole (on sR : Bool) (d : Int) : ∀ (es : List (OpTy × Enc)) (pre : List Operand) (o : Operand)
    (post : List Operand) (f : Fmt), (∀ x ∈ pre ++ post, isPlain x = true) → ((∃ s, o = .rip 0 s) ∨ o = .seg .fs 0) →
    (∃ t, es[pre.length]? = some (t, .rm)) →
    fillOps on sR f es ((pre ++ o :: post).map (setDisp d)) =
      (fillOps on sR f es (pre ++ o :: post)).map (putD (int32Bytes d)) ∧
    ∀ g, fillOps on sR f es (pre ++ o :: post) = some g → g.disps = int32Bytes 0
  | [], pre, o, post, f, hp, ho, he => by simp at he
  | (t, e) :: es, [], o, post, f, hp, ho, he => by
    simp only [List.length_nil, List.getElem?_cons_zero, Option.some.injEq, Prod.mk.injEq] at he
    obtain ⟨t', _, rfl⟩ := he
    have hpost : ∀ x ∈ post, isPlain x = true := fun x hx => hp x (by simp [hx])
    have hmap : post.map (setDisp d) = post := by
      conv => rhs; rw [← List.map_id post]
      exact List.map_congr_left (fun x hx => setDisp_plain d x (hpost x hx))
    obtain ⟨h1, h2⟩ := fillOp_hole on sR f o d ho
    simp only [List.nil_append, List.map_cons, fillOps, hmap]
    rw [h1]
    cases hf : fillOp on sR f .rm o with
    | none => exact ⟨rfl, fun g hg => by simp at hg⟩
    | some g =>
      refine ⟨fillOps_putD on sR _ es post g hpost, fun g' hg' => ?_⟩
      rw [fillOps_disps on sR es post g g' hpost hg', h2 g hf]
  | (t, e) :: es, x :: pre, o, post, f, hp, ho, he => by
    have hx : isPlain x = true := hp x (by simp)
    simp only [List.cons_append, List.map_cons, fillOps, setDisp_plain d x hx]
    cases hf : fillOp on sR f e x with
    | none => exact ⟨rfl, fun g hg => by simp at hg⟩
    | some g =>
      exact fillOps_hole on sR d es pre o post g (fun y hy => hp y (List.mem_cons_of_mem _ hy)) ho (by simpa using he)

/-! ## Immediates are last -/

theorem fillOp_imms (on sR : Bool) (f g : Fmt) (e : Enc) (o : Operand)
    (h : isPlain o = true ∨ (∃ s, o = .rip 0 s) ∨ o = .seg .fs 0) (hg : fillOp on sR f e o = some g) :
    g.imms.length = if immSize o = 0 then f.imms.length else immSize o := by
  rcases h with h | ⟨s, rfl⟩ | rfl
  · cases o with
    | reg r =>
      cases e with
      | reg =>
        cases sR <;> cases on <;> cases hm : f.modrm <;> simp [fillOp, Fmt.setRex, Fmt.setModrm, hm] at hg <;> subst hg <;> rfl
      | rm => cases on <;> simp [fillOp, Fmt.setRex, Fmt.setModrm] at hg <;> subst hg <;> rfl
      | plus => cases on <;> simp [fillOp, Fmt.setRex] at hg <;> subst hg <;> rfl
      | imm => simp [fillOp] at hg
    | u8 v => cases e <;> simp [fillOp] at hg <;> subst hg <;> rfl
    | u16 v => cases e <;> simp [fillOp] at hg <;> subst hg <;> rfl
    | u32 v => cases e <;> simp [fillOp] at hg <;> subst hg <;> rfl
    | u64 v => cases e <;> simp [fillOp] at hg <;> subst hg <;> rfl
    | uint v => simp [isPlain] at h
    | ind r s => simp [isPlain] at h
    | disp r d s => simp [isPlain] at h
    | sib b i sc d s => simp [isPlain] at h
    | rip d s => simp [isPlain] at h
    | seg s d => simp [isPlain] at h
  · cases e <;> simp [fillOp] at hg <;> subst hg <;> rfl
  · cases e <;> simp [fillOp] at hg <;> subst hg <;> rfl

def lastImm (os : List Operand) : Nat := (os.getLast?.map immSize).getD 0

theorem fillOps_imms (on sR : Bool) : ∀ (es : List (OpTy × Enc)) (os : List Operand) (f g : Fmt),
    es.length = os.length → (∀ o ∈ os, isPlain o = true ∨ (∃ s, o = .rip 0 s) ∨ o = .seg .fs 0) →
    (∀ o ∈ os.dropLast, immSize o = 0) → fillOps on sR f es os = some g →
    g.imms.length = if lastImm os = 0 then f.imms.length else lastImm os
  | [], [], f, g, _, _, _, hg => by
    simp only [fillOps, Option.some.injEq] at hg; subst hg; rfl
  | [], _ :: _, f, g, hl, _, _, _ => by simp at hl
  | _ :: _, [], f, g, hl, _, _, _ => by simp at hl
  | (t, e) :: es, [o], f, g, hl, h, _, hg => by
    obtain ⟨g1, hg1, hg⟩ := fillOps_cons _ _ _ _ _ _ _ _ _ hg
    have : es = [] := by simpa using hl
    subst this
    simp only [fillOps, Option.some.injEq] at hg; subst hg
    exact fillOp_imms on sR f g1 e o (h o (by simp)) hg1
  | (t, e) :: es, o :: o2 :: os, f, g, hl, h, hd, hg => by
    obtain ⟨g1, hg1, hg⟩ := fillOps_cons _ _ _ _ _ _ _ _ _ hg
    have h0 : immSize o = 0 := hd o (by simp)
    have h1 := fillOp_imms on sR f g1 e o (h o (by simp)) hg1
    rw [if_pos h0] at h1
    have := fillOps_imms on sR es (o2 :: os) g1 g (by simpa using hl) (fun x hx => h x (List.mem_cons_of_mem _ hx))
      (fun x hx => hd x (by simp only [List.dropLast_cons₂]; exact List.mem_cons_of_mem _ hx)) hg
    rw [this, h1]
    have e : lastImm (o :: o2 :: os) = lastImm (o2 :: os) := by simp [lastImm, List.getLast?_cons_cons]
    rw [e]

/-! ## The encoding with a displacement -/

theorem immSize_key (o : Operand) (h : immSize o ≠ 0) : [Kind.u8, .u16, .u32, .u64, .uint].contains o.key.1 = true := by
  cases o <;> simp [immSize] at h <;> rfl

theorem withDisp_key (d : Int) (o : Operand) : (setDisp d o).key = o.key ∧ (setDisp d o).regs = o.regs := by
  cases o <;> exact ⟨rfl, rfl⟩

theorem fmt0_imms (l : List Ext) : ∀ f : Fmt, (l.foldl buildExt f).imms = f.imms := by
  induction l with
  | nil => exact fun _ => rfl
  | cons e l ih => intro f; rw [List.foldl_cons, ih]; cases e <;> rfl

/-- What comes before displacement and immediates. -/
def head (f : Fmt) : List Nat := Fmt.bytes { f with disps := [], imms := [] }
theorem bytes_split (f : Fmt) : f.bytes = head f ++ f.disps ++ f.imms := by
  simp [head, Fmt.bytes]

theorem enc_patch (i : Inst) (tls : Bool) (h : RefOk i tls) (b : List Nat) (he : encode i = some b) (d : Int) :
    encode (withDisp i d) = some (patch b (ripOffset b.length i) d) ∧ ripOffset b.length i + 4 ≤ b.length := by
  obtain ⟨pre, o, post, hops, hpl, ho⟩ := h
  have ho' : (∃ s, o = .rip 0 s) ∨ o = .seg .fs 0 := by
    rcases ho with ⟨_, h⟩ | ⟨_, h⟩
    · exact Or.inl h
    · exact Or.inr h
  simp only [encode, bind, Option.bind_eq_some_iff, pure, Option.some.injEq] at he
  obtain ⟨row, hrow, f, hf, rfl⟩ := he
  obtain ⟨hmem, hu⟩ := select_under hrow
  have hpd := List.all_eq_true.1 rows_placed row hmem
  simp only [placed, Bool.and_eq_true, List.all_eq_true] at hpd
  have hkeys : (withDisp i d).ops.map Operand.key = i.ops.map Operand.key := by
    simp only [withDisp, List.map_map]
    exact List.map_congr_left (fun x _ => (withDisp_key d x).1)
  have hregs : (withDisp i d).regs = i.regs := by
    simp only [Inst.regs, withDisp, List.flatMap_map]
    congr 1
    funext x; exact (withDisp_key d x).2
  have hsel : select (withDisp i d) = some row := by
    rw [← hrow]
    simp only [select, hkeys, hregs]; rfl
  have hneed : (withDisp i d).needRex = i.needRex := by simp [Inst.needRex, hregs]
  have hlen : row.ops.length = i.ops.length := by simpa using under_length _ _ hu
  have hhole : ∃ t, row.ops[pre.length]? = some (t, .rm) := by
    obtain ⟨t, e, hget, hk⟩ := under_get _ _ pre.length o.key hu (by simp [hops])
    refine ⟨t, ?_⟩
    have := hpd.1 (t, e) (List.mem_of_getElem? hget)
    have hk' : ((lowToHigh t).any fun k => k.1 == .rip || k.1 == .seg) = true := by
      refine List.any_eq_true.2 ⟨o.key, hk, ?_⟩
      rcases ho' with ⟨s, rfl⟩ | rfl <;> rfl
    simp only [hk', Bool.not_true, Bool.false_or, beq_iff_eq] at this
    rw [hget, this]
  have hall : ∀ x ∈ i.ops, isPlain x = true ∨ (∃ s, x = .rip 0 s) ∨ x = .seg .fs 0 := by
    intro x hx
    rw [hops] at hx
    simp only [List.mem_append, List.mem_cons] at hx
    rcases hx with hx | rfl | hx
    · exact Or.inl (hpl x (by simp [hx]))
    · exact Or.inr ho'
    · exact Or.inl (hpl x (by simp [hx]))
  have hdrop : ∀ x ∈ i.ops.dropLast, immSize x = 0 := by
    intro x hx
    cases hz : immSize x with
    | zero => rfl
    | succ n =>
      exfalso
      obtain ⟨j, hj⟩ := List.getElem?_of_mem hx
      have hjl : j < i.ops.length - 1 := by
        have := List.getElem?_eq_some_iff.1 hj
        obtain ⟨h, _⟩ := this
        simpa using h
      have hj' : i.ops[j]? = some x := by
        rw [List.getElem?_dropLast] at hj
        simpa [hjl] using hj
      obtain ⟨t, e, hget, hk⟩ := under_get _ _ j x.key hu (by simp [hj'])
      have hmd : (t, e) ∈ row.ops.dropLast := by
        refine List.mem_of_getElem? (i := j) ?_
        rw [List.getElem?_dropLast, hlen, if_pos hjl, hget]
      have h1 := hpd.2 (t, e) hmd
      have h2 : ((lowToHigh t).any fun k => [Kind.u8, .u16, .u32, .u64, .uint].contains k.1) = true :=
        List.any_eq_true.2 ⟨x.key, hk, immSize_key x (by omega)⟩
      simp only [h2] at h1; cases h1
  simp only [fill] at hf
  generalize hF : (if (i.needRex && !row.hasRex) = true then
    buildExt (List.foldl buildExt { pfx := row.pfx, opc := row.opc } row.exts) Ext.rex
    else List.foldl buildExt { pfx := row.pfx, opc := row.opc } row.exts) = F at hf
  have hFi : F.imms = [] := by
    rw [← hF]
    split
    · exact fmt0_imms _ _
    · exact fmt0_imms _ _
  have himm := fillOps_imms _ _ _ _ _ _ hlen hall hdrop hf
  rw [hFi] at himm
  have hH := fillOps_hole (row.hasRex || i.needRex) (row.exts.contains .slashR) d row.ops pre o post F hpl ho' hhole
  rw [← hops] at hH
  rw [hf] at hH
  have hd0 := hH.2 f rfl
  have hrip : ripOffset f.bytes.length i = (head f).length := by
    have hL : (if 1 < i.ops.length then (i.ops.getLast?.map immSize).getD 0 else 0) = lastImm i.ops := by
      split
      · rfl
      · rename_i h1
        have : i.ops = [o] := by
          rw [hops] at h1
          simp only [List.length_append, List.length_cons] at h1
          have e1 : pre = [] := List.length_eq_zero_iff.1 (by omega)
          have e2 : post = [] := List.length_eq_zero_iff.1 (by omega)
          rw [hops, e1, e2]; rfl
        rw [this]
        rcases ho' with ⟨s, rfl⟩ | rfl <;> rfl
    rw [ripOffset, hL, bytes_split]
    simp only [List.length_append, hd0, himm, List.length_nil]
    have : (int32Bytes 0).length = 4 := rfl
    split <;> omega
  constructor
  · have hfill : fill row (withDisp i d) = some (putD (int32Bytes d) f) := by
      simp only [fill, hneed, hF]
      exact hH.1
    simp only [encode, hsel, hfill, bind, Option.bind, pure, Option.some.injEq]
    rw [hrip, patch]
    conv => rhs; rw [bytes_split f, hd0]
    rw [bytes_split]
    have e1 : head (putD (int32Bytes d) f) = head f := rfl
    have e2 : (putD (int32Bytes d) f).imms = f.imms := rfl
    have e3 : (putD (int32Bytes d) f).disps = int32Bytes d := rfl
    rw [e1, e2, e3]
    have e4 : (int32Bytes 0).length = 4 := rfl
    simp only [List.append_assoc]
    rw [List.take_left, ← List.append_assoc (head f) (int32Bytes 0) f.imms,
      List.drop_left' (by simp only [List.length_append, e4])]
  · rw [hrip, bytes_split]
    have e4 : (int32Bytes 0).length = 4 := rfl
    simp only [List.length_append, hd0, e4]
    omega

end Nature.Branch
