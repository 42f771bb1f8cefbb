import Verif.Arm64.Cases6
/-!
C89: the machine code of an instruction is that instruction, on arm64.
-/
namespace Nature.Arm64

/-- The size of a load or store offset: a positive one has to be a multiple of the size, and small. -/
def Addr.small (size lim : Int) : Addr → Prop
  | .off _ o => 0 ≤ o → o % size = 0 ∧ o < lim
  | _ => True

/-- The instructions the encoder gets right; others are the subject of the counterexamples below. -/
def Supported : Req → Prop
  | .movi _ _ v => -65536 ≤ v ∧ v < 65536
  | .cmp _ a _ | .cmn _ a _ => a ≠ .sp
  | .mvn q _ _ => q = true
  | .ldr k q _ a => (k = .h ∨ k = .w ∨ q = false) ∧ a.small (k.bytes q) 4096
  | .str k q _ a => (∀ b, a ≠ .sym b) ∧ a.small (k.bytes q) 4096
  | .ldp q _ _ _ | .stp q _ _ _ => q = true
  | .fldr dbl _ a | .fstr dbl _ a => (∀ b m e, a ≠ .idx b m e) ∧ a.small (if dbl then 8 else 4) 512
  | .fldp dbl _ _ _ | .fstp dbl _ _ _ => dbl = true
  | _ => True

theorem toNat_mul {o : Int} {k : Nat} (h0 : 0 ≤ o) (h : o % (2 ^ k : Nat) = 0) : ∃ v : Nat, o = (v * 2 ^ k : Nat) := by
  obtain ⟨c, hc⟩ := Int.dvd_of_emod_eq_zero h
  refine ⟨c.toNat, ?_⟩
  have hp : (0 : Int) < (2 ^ k : Nat) := by
    have := Nat.two_pow_pos k
    omega
  have c0 : 0 ≤ c := by
    rcases Int.lt_or_le c 0 with hn | hn
    · have := Int.mul_neg_of_pos_of_neg hp hn
      omega
    · exact hn
  have e : ((c.toNat : Nat) : Int) = c := Int.toNat_of_nonneg c0
  rw [Int.natCast_mul, e, Int.mul_comm]
  exact hc

theorem ldr_all {M : Fpu} {k : Ld} {q : Bool} {size sg : Nat} (h : LdTab k q size sg) {t : R} {a : Addr} (ht : t ≠ .sp) (ha : a.legal (k.bytes q) t)
    (hs : a.small (k.bytes q) 4096) : Good M (.ldr k q t a) := by
  cases a with
  | off b o =>
    obtain ⟨hb, ho⟩ := ha
    by_cases h0 : 0 ≤ o
    · obtain ⟨h1, h2⟩ := hs h0
      rw [h.lt.2.2] at h1
      obtain ⟨v, rfl⟩ := toNat_mul h0 h1
      exact ldr_uoff_good h ht hb (by omega)
    · exact ldr_9_good h ht (.inl ⟨rfl, rfl, by omega⟩) hb (by omega) (by omega)
  | pre b o => exact ldr_9_good h ht (.inr (.inr ⟨rfl, rfl⟩)) ha.1 ha.2.1 ha.2.2.1
  | post b o => exact ldr_9_good h ht (.inr (.inl ⟨rfl, rfl⟩)) ha.1 ha.2.1 ha.2.2.1
  | idx b m e => exact ldr_idx_good h ht ha.1 ha.2.1
  | sym b => exact ldr_sym_good h ht ha

theorem str_all {M : Fpu} {k : Sd} {q : Bool} {size : Nat} (h : StTab k q size) {t : R} {a : Addr} (ht : t ≠ .sp) (ha : a.legal (k.bytes q) t)
    (hn : ∀ b, a ≠ .sym b) (hs : a.small (k.bytes q) 4096) : Good M (.str k q t a) := by
  cases a with
  | off b o =>
    obtain ⟨hb, ho⟩ := ha
    by_cases h0 : 0 ≤ o
    · obtain ⟨h1, h2⟩ := hs h0
      rw [h.lt.2] at h1
      obtain ⟨v, rfl⟩ := toNat_mul h0 h1
      exact str_uoff_good h ht hb (by omega)
    · exact str_9_good h ht (.inl ⟨rfl, rfl, by omega⟩) hb (by omega) (by omega)
  | pre b o => exact str_9_good h ht (.inr (.inr ⟨rfl, rfl⟩)) ha.1 ha.2.1 ha.2.2.1
  | post b o => exact str_9_good h ht (.inr (.inl ⟨rfl, rfl⟩)) ha.1 ha.2.1 ha.2.2.1
  | idx b m e => exact str_idx_good h ht ha.1 ha.2.1
  | sym b => exact absurd rfl (hn b)

theorem f_all {M : Fpu} {ld dbl : Bool} {t : Fin 32} {a : Addr} (ha : a.legal (if dbl then 8 else 4) .zr)
    (hn : ∀ b m e, a ≠ .idx b m e) (hs : a.small (if dbl then 8 else 4) 512) : Good M (fmem ld dbl t a) := by
  cases a with
  | off b o =>
    obtain ⟨hb, ho⟩ := ha
    by_cases h0 : 0 ≤ o
    · obtain ⟨h1, h2⟩ := hs h0
      have h1' : o % (2 ^ (2 + bit dbl) : Nat) = 0 := by cases dbl <;> exact h1
      obtain ⟨v, rfl⟩ := toNat_mul h0 h1'
      exact f_uoff_good hb (by omega)
    · exact f_9_good (.inl ⟨rfl, rfl, by omega⟩) hb (by omega) (by omega)
  | pre b o => exact f_9_good (.inr (.inr ⟨rfl, rfl⟩)) ha.1 ha.2.1 ha.2.2.1
  | post b o => exact f_9_good (.inr (.inl ⟨rfl, rfl⟩)) ha.1 ha.2.1 ha.2.2.1
  | idx b m e => exact absurd rfl (hn b m e)
  | sym b => exact f_sym_good ha

theorem pair_all {M : Fpu} {ld : Bool} {t u : R} {a : Addr} (ht : t ≠ .sp) (hu : u ≠ .sp) (ha : a.legal2 8 t u) : Good M (pmem ld t u a) := by
  cases a with
  | off b o => exact pair_good (.inl ⟨rfl, rfl⟩) ha.1 ht hu ha.2.1 (by have := ha.2.2.1; omega) (by have := ha.2.2.2; omega)
  | pre b o => exact pair_good (.inr (.inr ⟨rfl, rfl⟩)) ha.1 ht hu ha.2.1 (by have := ha.2.2.1; omega) (by have := ha.2.2.2.1; omega)
  | post b o => exact pair_good (.inr (.inl ⟨rfl, rfl⟩)) ha.1 ht hu ha.2.1 (by have := ha.2.2.1; omega) (by have := ha.2.2.2.1; omega)
  | idx b m e => exact ha.elim
  | sym b => exact ha.elim

theorem fpair_all {M : Fpu} {ld : Bool} {t u : Fin 32} {a : Addr} (ha : a.legal2 8 .zr .zr) : Good M (fpmem ld t u a) := by
  cases a with
  | off b o => exact fpair_good (.inl ⟨rfl, rfl⟩) ha.1 ha.2.1 (by have := ha.2.2.1; omega) (by have := ha.2.2.2; omega)
  | pre b o => exact fpair_good (.inr (.inr ⟨rfl, rfl⟩)) ha.1 ha.2.1 (by have := ha.2.2.1; omega) (by have := ha.2.2.2.1; omega)
  | post b o => exact fpair_good (.inr (.inl ⟨rfl, rfl⟩)) ha.1 ha.2.1 (by have := ha.2.2.1; omega) (by have := ha.2.2.2.1; omega)
  | idx b m e => exact ha.elim
  | sym b => exact ha.elim

theorem add_all {M : Fpu} {sub q : Bool} {d a b : R} (hb : b ≠ .sp) (h1 : d.spOk q) (h2 : a.spOk q) (h3 : d = .sp → a ≠ .zr)
    (h4 : a = .sp → d ≠ .zr) : Good M (.alu (if sub then .sub else .add) q d a b) := by
  by_cases hs : d = .sp ∨ a = .sp
  · have hq : q = true := hs.elim (fun h => h1 h) (fun h => h2 h)
    subst hq
    refine adds_good hs ?_ ?_ hb
    · rcases hs with h | h
      · rw [h]; simp
      · exact h4 h
    · rcases hs with h | h
      · exact h3 h
      · rw [h]; simp
  · exact addz_good (fun h => hs (.inl h)) (fun h => hs (.inr h)) hb

theorem good_all {M : Fpu} (r : Req) (hl : Legal r) (hs : Supported r) : Good M r := by
  cases r with
  | mov q d a => exact mov_good hl.1 hl.2.1 hl.2.2.1 hl.2.2.2
  | movi q d v => exact movi_good hl.1 hs.1 hs.2
  | movk q d v k => exact movk_good hl.1 hl.2.1 hl.2.2.1 hl.2.2.2.1 hl.2.2.2.2.1 hl.2.2.2.2.2
  | alu op q d a b =>
    obtain ⟨hb, h⟩ := hl
    by_cases ho : op = .add ∨ op = .sub
    · rw [if_pos ho] at h
      rcases ho with rfl | rfl
      · exact add_all (sub := false) hb h.1 h.2.1 h.2.2.1 h.2.2.2
      · exact add_all (sub := true) hb h.1 h.2.1 h.2.2.1 h.2.2.2
    · rw [if_neg ho] at h
      exact alu3_good ⟨fun h => ho (.inl h), fun h => ho (.inr h)⟩ h.1 h.2 hb
  | aluExt sub q d a b o amt =>
    obtain ⟨hb, o0, o10, a0, h⟩ := hl
    by_cases ho : o < 8
    · rw [if_pos ho] at h
      exact aluExt_e_good hb o0 ho a0 h.1 h.2.1 h.2.2.1
    · rw [if_neg ho] at h
      exact aluExt_s_good hb (by omega) o10 a0 h.1 h.2.1 h.2.2
  | alui op q d a v =>
    by_cases ho : op = .add ∨ op = .sub
    · have h : if op = .add ∨ op = .sub then d ≠ .zr ∧ a ≠ .zr ∧ d.spOk q ∧ a.spOk q ∧ -4095 ≤ v ∧ v ≤ 4095 else
        d ≠ .sp ∧ a ≠ .sp ∧ 0 ≤ v ∧ v < wd q := hl
      rw [if_pos ho] at h
      rcases ho with rfl | rfl
      · exact alui_add_good (sub := false) h.1 h.2.1 h.2.2.2.2.1 h.2.2.2.2.2
      · exact alui_add_good (sub := true) h.1 h.2.1 h.2.2.2.2.1 h.2.2.2.2.2
    · have h : if op = .add ∨ op = .sub then d ≠ .zr ∧ a ≠ .zr ∧ d.spOk q ∧ a.spOk q ∧ -4095 ≤ v ∧ v ≤ 4095 else
        d ≠ .sp ∧ a ≠ .sp ∧ 0 ≤ v ∧ v < wd q := hl
      rw [if_neg ho] at h
      refine shift_good ?_ h.1 h.2.1 h.2.2.1 h.2.2.2
      cases op <;> simp_all
  | aluSym sub q d a => exact aluSym_good hl.1 hl.2.1
  | cmp q a b => exact cmp_good hs hl.2
  | cmn q a b => exact cmn_good hs hl.2
  | cmpi q a v => exact cmpi_good hl.1 hl.2.2.1 hl.2.2.2
  | cmni q a v => exact cmni_good hl.1 hl.2.2.1 hl.2.2.2
  | ext k q d a => exact ext_good hl.1 hl.2.1 hl.2.2
  | madd q d a b c => exact madd_good hl.1 hl.2.1 hl.2.2.1 hl.2.2.2
  | msub q d a b c => exact msub_good hl.1 hl.2.1 hl.2.2.1 hl.2.2.2
  | mvn q d a =>
    have hq : q = true := hs
    subst hq
    exact mvn_good hl.1 hl.2
  | ldr k q t a =>
    obtain ⟨hk, hsm⟩ := hs
    have : ∃ size sg, LdTab k q size sg := by
      cases k <;> cases q <;> first
        | (refine ⟨0, 0, ?_⟩; simp [LdTab]; done)
        | (refine ⟨1, 0, ?_⟩; simp [LdTab]; done)
        | (refine ⟨2, 0, ?_⟩; simp [LdTab]; done)
        | (refine ⟨3, 0, ?_⟩; simp [LdTab]; done)
        | (refine ⟨0, 1, ?_⟩; simp [LdTab]; done)
        | (refine ⟨1, 1, ?_⟩; simp [LdTab]; done)
        | simp at hk
    obtain ⟨size, sg, ht⟩ := this
    exact ldr_all ht hl.1 hl.2 hsm
  | str k q t a =>
    have hq := hl.2.2
    have : ∃ size, StTab k q size := by
      cases k <;> cases q <;> first
        | (refine ⟨0, ?_⟩; simp [StTab]; done)
        | (refine ⟨1, ?_⟩; simp [StTab]; done)
        | (refine ⟨2, ?_⟩; simp [StTab]; done)
        | (refine ⟨3, ?_⟩; simp [StTab]; done)
        | simp at hq
    obtain ⟨size, ht⟩ := this
    exact str_all ht hl.1 hl.2.1 hs.1 hs.2
  | ldp q t u a =>
    have hq : q = true := hs
    subst hq
    exact pair_all (ld := true) hl.1 hl.2.1 hl.2.2.2
  | stp q t u a =>
    have hq : q = true := hs
    subst hq
    exact pair_all (ld := false) hl.1 hl.2.1 hl.2.2
  | adrp d => exact adrp_good hl
  | cset q d c => exact cset_good hl.1 hl.2.1 hl.2.2
  | b l off => exact b_good hl
  | bl l off => exact bl_good hl
  | bcc c l off => exact bcc_good hl
  | cbz q t l off => exact cbz_good hl.1 hl.2
  | cbnz q t l off => exact cbnz_good hl.1 hl.2
  | br a => exact br_good hl
  | blr a => exact blr_good hl
  | ret => exact ret_good
  | svc v => exact svc_good hl.1 hl.2
  | mrs d v => exact mrs_good hl.1 hl.2.1 hl.2.2
  | nop => exact nop_good
  | fldr dbl t a => exact f_all (ld := true) hl hs.1 hs.2
  | fstr dbl t a => exact f_all (ld := false) hl hs.1 hs.2
  | fldp dbl t u a =>
    have hq : dbl = true := hs
    subst hq
    exact fpair_all (ld := true) hl.2
  | fstp dbl t u a =>
    have hq : dbl = true := hs
    subst hq
    exact fpair_all (ld := false) hl
  | fmov dbl d a => exact fmov_good
  | fmovx q d a => exact fmovx_good hl
  | fmovi dbl d v => exact fmovi_good hl.1 hl.2
  | farith op dbl d a b => exact farith_good
  | fma op dbl d a b c => exact fma_good
  | fcmp dbl a b => exact fcmp_good
  | fneg dbl d a => exact fneg_good
  | fsqrt dbl d a => exact fsqrt_good
  | fcvt to d a => exact fcvt_good
  | cvtf signed q dbl d a => exact cvtf_good hl
  | cvtz signed q dbl d a => exact cvtz_good hl

/-- C89, in part. For every instruction of the assembly language that exists and is `Supported`, with any registers and numbers,
    the encoder makes a 32-bit word, the processor knows that word, and executing it changes any state just as the instruction
    says. Missing: the instructions outside `Supported`, which the counterexamples below show to be encoded wrongly or which are
    refused, and faults. -/
theorem C89_encodes_partial (M : Fpu) (r : Req) (hl : Legal r) (hs : Supported r) :
    ∃ w i, encode (instOf r) = some w ∧ w < 2 ^ 32 ∧ decode w = some i ∧ ∀ s, exec M i s = effect M r s :=
  good_all r hl hs

example : Legal (.ldr .w true (.x 3) (.off .sp 128)) ∧ Supported (.ldr .w true (.x 3) (.off .sp 128)) ∧
    encode (instOf (.ldr .w true (.x 3) (.off .sp 128))) = some 0xf94043e3 := by
  refine ⟨⟨by decide, by decide, .inl (by decide)⟩, ⟨by decide, fun _ => by decide⟩, by decide⟩
example : Legal (.alu .sub true (.x 0) (.x 1) (.x 2)) ∧ encode (instOf (.alu .sub true (.x 0) (.x 1) (.x 2))) = some 0xcb020020 := by
  refine ⟨⟨by decide, ?_⟩, by decide⟩
  rw [if_pos (.inr rfl)]
  refine ⟨by simp [R.spOk], by simp [R.spOk], by decide, by decide⟩
example : Legal (.stp true (.x 29) (.x 30) (.pre .sp (-16))) ∧ Supported (.stp true (.x 29) (.x 30) (.pre .sp (-16))) ∧
    encode (instOf (.stp true (.x 29) (.x 30) (.pre .sp (-16)))) = some 0xa9bf7bfd :=
  ⟨⟨by decide, by decide, by decide, by decide, by decide, by decide, .inl rfl⟩, rfl, by decide⟩
example : Legal (.bcc .ne true (-8)) ∧ encode (instOf (.bcc .ne true (-8))) = some 0x54ffffc1 :=
  ⟨⟨by decide, by decide, by decide⟩, by decide⟩

/-- Different instructions get different words, as far as they do different things: a word determines the effect. -/
theorem C89_words_differ_partial (M : Fpu) (r1 r2 : Req) (h1 : Legal r1) (h2 : Legal r2) (s1 : Supported r1) (s2 : Supported r2)
    (h : encode (instOf r1) = encode (instOf r2)) (s : St) : effect M r1 s = effect M r2 s := by
  obtain ⟨w1, i1, e1, _, d1, x1⟩ := C89_encodes_partial M r1 h1 s1
  obtain ⟨w2, i2, e2, _, d2, x2⟩ := C89_encodes_partial M r2 h2 s2
  rw [e1, e2, Option.some.injEq] at h
  subst h
  rw [d1, Option.some.injEq] at d2
  subst d2
  rw [← x1, ← x2]

example : encode (instOf (.mov true (.x 1) .sp)) = encode (instOf (.alui .add true (.x 1) .sp 0)) := by decide

/-! ### What is refused -/

theorem refuse {i : Inst} {op : Op} (hm : matchOp i = some op) (hh : handle i.raw op i.ops = none) : encode i = none := by
  unfold encode
  rw [hm]
  simp only [hh]

theorem refuse' {i : Inst} (hh : ∀ op, handle i.raw op i.ops = none) : encode i = none := by
  unfold encode
  cases matchOp i with
  | none => rfl
  | some op => simp only [hh]

/-- Numbers that do not fit are not cut off but refused: additions and subtractions beyond twelve bits, comparisons with less than
    zero or beyond twelve bits, loads and stores of general registers beyond 4096 bytes, of floating point registers and of
    pairs beyond 512 bytes. -/
theorem C89_refuses_partial (q : Bool) (d e a : R) (t u : Fin 32) (v : Int) :
    (v < -4095 ∨ 4095 < v → encode (instOf (.alui .add q d a v)) = none ∧ encode (instOf (.alui .sub q d a v)) = none) ∧
    (v < 0 ∨ 4095 < v → encode (instOf (.cmpi q a v)) = none ∧ encode (instOf (.cmni q a v)) = none) ∧
    (v < -4096 ∨ 4095 < v → ∀ x ∈ [Addr.off a v, .pre a v, .post a v],
      (∀ k, encode (instOf (.ldr k q d x)) = none) ∧ (∀ k, encode (instOf (.str k q d x)) = none)) ∧
    (v < -512 ∨ 512 ≤ v → ∀ x ∈ [Addr.off a v, .pre a v, .post a v],
      encode (instOf (.fldr q t x)) = none ∧ encode (instOf (.fstr q t x)) = none ∧
      encode (instOf (.ldp q d e x)) = none ∧ encode (instOf (.stp q d e x)) = none ∧
      encode (instOf (.fldp q t u x)) = none ∧ encode (instOf (.fstp q t u x)) = none) := by
  refine ⟨fun h => ⟨?_, ?_⟩, fun h => ⟨?_, ?_⟩, fun h x hx => ⟨fun k => ?_, fun k => ?_⟩, fun h x hx => ⟨?_, ?_, ?_, ?_, ?_, ?_⟩⟩
  · exact refuse (op := .i) (by cases q <;> mt) (by hn h)
  · exact refuse (op := .i) (by cases q <;> mt) (by hn h)
  · exact refuse (op := .i) (by cases q <;> mt) (by hn h)
  · exact refuse (op := .i) (by cases q <;> mt) (by hn h)
  all_goals
    simp only [List.mem_cons, List.not_mem_nil, or_false] at hx
    apply refuse'
    intro op
  all_goals
    rcases hx with rfl | rfl | rfl <;> (try cases k) <;> cases op <;> (hn) <;> (intros; omega)

example : encode (instOf (.alui .add true (.x 0) (.x 1) 4096)) = none := by decide

/-! ### What goes wrong -/

/-- An instruction that exists gets a word that does something else, whatever floating point arithmetic is. -/
def Wrong (r : Req) : Prop :=
  Legal r ∧ ∃ w i, encode (instOf r) = some w ∧ decode w = some i ∧ ∃ s, ∀ M, exec M i s ≠ effect M r s

theorem wrong {r : Req} {w : Nat} {i : Insn} {α : Type} (hl : Legal r) (he : encode (instOf r) = some w) (hd : decode w = some i)
    (s : St) (f : St → α) (a b : α) (h1 : ∀ M, f (exec M i s) = a) (h2 : ∀ M, f (effect M r s) = b) (h : a ≠ b) : Wrong r :=
  ⟨hl, w, i, he, hd, s, fun M e => h ((h1 M).symm.trans ((congrArg f e).trans (h2 M)))⟩

/-- Every register holds eight times its number and the memory its own addresses. -/
def s0 : St where
  x := fun n => BitVec.ofNat 64 (8 * n)
  sp := 4096
  pc := 0x1000
  n := false
  z := false
  c := false
  v := false
  mem := fun a => a.setWidth 8 ||| 0x80
  f := fun n => BitVec.ofNat 64 n
  sys := fun _ => 0
  svc := none

/-- `mov x0, #65536` is accepted and loads 0. -/
theorem C89_mov_immediate_counterexample : Wrong (.movi true (.x 0) 65536) :=
  wrong (w := 0xd2800000) (i := .movz true 0 0 0) ⟨by decide, by decide, by decide⟩ (by decide) (by decide) s0 (fun t => t.x 0)
    0 65536 (fun _ => rfl) (fun _ => rfl) (by decide)

/-- `cmp sp, x1` compares zero with `x1`. -/
theorem C89_compare_stack_pointer_counterexample : Wrong (.cmp true .sp (.x 1)) :=
  wrong (w := 0xeb0103ff) (i := .addsubs true true true .lsl 0 1 31 31) ⟨fun _ => rfl, by decide⟩ (by decide) (by decide) s0 (fun t => t.c) false true (fun _ => rfl) (fun _ => rfl) (by decide)

/-- `mvn w0, w1` works on 64 bits. -/
theorem C89_mvn_counterexample : Wrong (.mvn false (.x 0) (.x 1)) :=
  wrong (w := 0xaa2103e0) (i := .logic .orr true true .lsl 0 1 31 0) ⟨by decide, by decide⟩ (by decide) (by decide) s0 (fun t => t.x 0) 0xfffffffffffffff7 0xfffffff7 (fun _ => rfl) (fun _ => rfl) (by decide)

/-- `ldrsh x0, [x1]` extends the sign to 32 bits only. -/
theorem C89_load_signed_half_counterexample : Wrong (.ldr .sh true (.x 0) (.off (.x 1) 0)) :=
  wrong (w := 0x79c00020) (i := .lds 1 false (.uoff 0) 1 0) ⟨by decide, by decide, .inl (by decide)⟩ (by decide) (by decide) s0
    (fun t => t.x 0) 0xffff8988 0xffffffffffff8988 (fun _ => rfl) (fun _ => rfl) (by decide)

/-- `ldrb x0, [x1]` loads two bytes, and so does `ldrsb x0, [x1]`. -/
theorem C89_load_byte_counterexample : Wrong (.ldr .b true (.x 0) (.off (.x 1) 0)) :=
  wrong (w := 0x79400020) (i := .ld 1 (.uoff 0) 1 0) ⟨by decide, by decide, .inl (by decide)⟩ (by decide) (by decide) s0
    (fun t => t.x 0) 0x8988 0x88 (fun _ => rfl) (fun _ => rfl) (by decide)
theorem C89_load_signed_byte_counterexample : Wrong (.ldr .sb true (.x 0) (.off (.x 1) 0)) :=
  wrong (w := 0x79c00020) (i := .lds 1 false (.uoff 0) 1 0) ⟨by decide, by decide, .inl (by decide)⟩ (by decide) (by decide) s0
    (fun t => t.x 0) 0xffff8988 0xffffffffffffff88 (fun _ => rfl) (fun _ => rfl) (by decide)

/-- `ldr x0, [x1, #4]` loads from `x1`. -/
theorem C89_unaligned_offset_counterexample : Wrong (.ldr .w true (.x 0) (.off (.x 1) 4)) :=
  wrong (w := 0xf9400020) (i := .ld 3 (.uoff 0) 1 0) ⟨by decide, by decide, .inr (by decide)⟩ (by decide) (by decide) s0
    (fun t => t.x 0) 0x8f8e8d8c8b8a8988 0x939291908f8e8d8c (fun _ => rfl) (fun _ => rfl) (by decide)

/-- `str x0, [x1, :lo12:symbol]` is a load. -/
theorem C89_store_symbol_counterexample : Wrong (.str .w true (.x 0) (.sym (.x 1))) :=
  wrong (w := 0x79c00020) (i := .lds 1 false (.uoff 0) 1 0) ⟨by decide, by simp [Addr.legal], by decide⟩ (by decide) (by decide) s0
    (fun t => t.x 0) 0xffff8988 0 (fun _ => rfl) (fun _ => rfl) (by decide)

/-- `ldp w0, w2, [x1, #8]` loads from `x1 + 4`, and so does the pair of 32-bit floating point registers. -/
theorem C89_pair32_counterexample : Wrong (.ldp false (.x 0) (.x 2) (.off (.x 1) 8)) :=
  wrong (w := 0x29408820) (i := .ldp false (.off 4) 2 1 0) ⟨by decide, by decide, by decide, by decide, by decide, by decide, by decide⟩ (by decide) (by decide) s0
    (fun t => t.x 0) 0x8f8e8d8c 0x93929190 (fun _ => rfl) (fun _ => rfl) (by decide)
theorem C89_float_pair32_counterexample : Wrong (.fldp false 0 2 (.off (.x 1) 8)) :=
  wrong (w := 0x2d408820) (i := .fldp false (.off 4) 2 1 0) ⟨by decide, by decide, by decide, by decide, by decide⟩ (by decide) (by decide) s0
    (fun t => t.f 0) 0x8f8e8d8c 0x93929190 (fun _ => rfl) (fun _ => rfl) (by decide)

/-- `ldr d0, [x1, x2]` takes `x18` for the index. -/
theorem C89_float_index_counterexample : Wrong (.fldr true 0 (.idx (.x 1) (.x 2) 0)) :=
  wrong (w := 0xfc726820) (i := .fld true (.reg 18 3 false) 1 0) ⟨by decide, by decide, by decide⟩ (by decide) (by decide) { s0 with x := fun n => if n = 18 then 1 else 8 * n }
    (fun t => t.f 0) 0x908f8e8d8c8b8a89 0x9f9e9d9c9b9a9998 (fun _ => rfl) (fun _ => rfl) (by decide)

/-- Instructions that do not exist are not all refused: an offset of -300 becomes 212, a branch over a megabyte forwards goes as
    far backwards, and a shift by 64 becomes a word the processor does not know. -/
theorem C89_accepts_nonsense_counterexample :
    (¬ Legal (.ldr .w true (.x 0) (.off (.x 1) (-300))) ∧
      (encode (instOf (.ldr .w true (.x 0) (.off (.x 1) (-300))))).bind decode = some (.ld 3 (.off 212) 1 0)) ∧
    (¬ Legal (.bcc .ne true 1048576) ∧ (encode (instOf (.bcc .ne true 1048576))).bind decode = some (.bcond 1 (-1048576))) ∧
    (¬ Legal (.alui .lsl true (.x 0) (.x 1) 64) ∧ ∃ w, encode (instOf (.alui .lsl true (.x 0) (.x 1) 64)) = some w ∧ decode w = none) := by
  refine ⟨⟨?_, by decide⟩, ⟨?_, by decide⟩, ?_, _, rfl, by decide⟩
  · rintro ⟨_, _, h | h⟩ <;> exact absurd h (by decide)
  · rintro ⟨_, _, h⟩
    exact absurd h (by decide)
  · intro h
    have h : if AluI.lsl = .add ∨ AluI.lsl = .sub then R.x 0 ≠ .zr ∧ R.x 1 ≠ .zr ∧ R.spOk true (.x 0) ∧ R.spOk true (.x 1) ∧ -4095 ≤ (64 : Int) ∧ (64 : Int) ≤ 4095 else (R.x 0 ≠ .sp ∧ R.x 1 ≠ .sp ∧ (0 : Int) ≤ 64 ∧ (64 : Int) < wd true) := h
    rw [if_neg (by decide)] at h
    exact absurd h.2.2.2 (by decide)

end Nature.Arm64
