import Verif.Arm64.Cases4
/-! Stores, floating point loads and stores, pairs. -/
namespace Nature.Arm64
variable {M : Fpu}

/-! ### Stores -/

def StTab (k : Sd) (q : Bool) (size : Nat) : Prop :=
  (k = .b ∧ q = false ∧ size = 0) ∨ (k = .h ∧ q = false ∧ size = 1) ∨ (k = .w ∧ q = false ∧ size = 2) ∨ (k = .w ∧ q = true ∧ size = 3)

theorem StTab.lt {k : Sd} {q : Bool} {size : Nat} (h : StTab k q size) : size < 4 ∧ k.bytes q = 2 ^ size := by
  rcases h with ⟨rfl, rfl, rfl⟩ | ⟨rfl, rfl, rfl⟩ | ⟨rfl, rfl, rfl⟩ | ⟨rfl, rfl, rfl⟩ <;> exact ⟨by decide, rfl⟩

theorem st_exec {k : Sd} {q : Bool} {size : Nat} (h : StTab k q size) {am : Am} {a : Addr} {t : R} (ht : t ≠ .sp)
    (ha : AmOk size am a) (s : St) : exec M (.st size am a.base.num t.num) s = effect M (.str k q t a) s := by
  simp only [exec, effect, (ha s).1, (ha s).2, xz_num s ht, h.lt.2]

theorem st_match {k : Sd} {q : Bool} {size : Nat} (h : StTab k q size) {t : R} {a : Addr} : matchOp (instOf (.str k q t a)) = some .same := by
  rcases h with ⟨rfl, rfl, rfl⟩ | ⟨rfl, rfl, rfl⟩ | ⟨rfl, rfl, rfl⟩ | ⟨rfl, rfl, rfl⟩ <;> cases a <;> mt

theorem stc (size : Nat) (hs : size < 4) : 0x38000000 ||| size <<< 30 = (size * 512 + 0x1c0 + 0 * 32 + 0 * 2) <<< 21 ∧
    0x39000000 ||| size <<< 30 = (size * 512 + 0x1c8 + 0 * 32 + 0 * 2) <<< 21 ∧
    0x38200800 ||| size <<< 30 = (size * 512 + 0x1c1 + 0 * 32 + 0 * 2) <<< 21 ||| 2 <<< 10 := by
  have : ∀ s : Fin 4, 0x38000000 ||| (s : Nat) <<< 30 = ((s : Nat) * 512 + 0x1c0 + 0 * 32 + 0 * 2) <<< 21 ∧
    0x39000000 ||| (s : Nat) <<< 30 = ((s : Nat) * 512 + 0x1c8 + 0 * 32 + 0 * 2) <<< 21 ∧
    0x38200800 ||| (s : Nat) <<< 30 = ((s : Nat) * 512 + 0x1c1 + 0 * 32 + 0 * 2) <<< 21 ||| 2 <<< 10 := by decide
  exact this ⟨size, hs⟩

theorem str_uoff_good {k : Sd} {q : Bool} {size : Nat} (h : StTab k q size) {t b : R} {v : Nat} (ht : t ≠ .sp) (hb : b ≠ .zr)
    (hv : v * 2 ^ size < 4096) : Good M (.str k q t (.off b (v * 2 ^ size : Nat))) := by
  have he := st_exec (M := M) h ht (am_uoff (size := size) hb (k := v) rfl)
  obtain ⟨l1, _⟩ := h.lt
  have hv2 : v < 4096 := scaled_nat hv
  have hl : low 12 v = v := by
    rw [low_nat (by omega) (by omega)]
    rfl
  have hW : Word (W_STR_UIMM size t.num v b.num) (size * 512 + 0x1c8 + 0 * 32 + 0 * 2 + v / 2048) (v / 64 % 32) (v % 64) b.num t.num := by
    unfold W_STR_UIMM
    rw [hl]
    exact word12 (stc size l1).2.1 (by omega) (by omega) (by omega) hv2 (num_lt _) (num_lt _)
  refine good hW (st_match h) ?_ (dec_uoff l1 (by decide) (by decide) hv2) he
  have r1 : ((v * 2 ^ size : Nat) : Int) ≤ 4095 ∧ -4096 ≤ ((v * 2 ^ size : Nat) : Int) := by omega
  have r2 : 0 ≤ ((v * 2 ^ size : Nat) : Int) := by omega
  rcases h with ⟨rfl, rfl, rfl⟩ | ⟨rfl, rfl, rfl⟩ | ⟨rfl, rfl, rfl⟩ | ⟨rfl, rfl, rfl⟩
  all_goals simp only [instOf, Sd.raw, Addr.op, handle, asmLdrstr, ldNum, stNum, r1, r2, and_self, if_true, scaled, bit]
  all_goals simp

theorem str_9_good {k : Sd} {q : Bool} {size : Nat} (h : StTab k q size) {t b : R} {o : Int} {p : Nat} {a : Addr} (ht : t ≠ .sp)
    (hab : (p = 0 ∧ a = .off b o ∧ o < 0) ∨ (p = 1 ∧ a = .post b o) ∨ (p = 3 ∧ a = .pre b o)) (hb : b ≠ .zr) (h1 : -256 ≤ o) (h2 : o < 256) : Good M (.str k q t a) := by
  have hok : AmOk size (amOf p o) a := by
    rcases hab with ⟨rfl, rfl, _⟩ | ⟨rfl, rfl⟩ | ⟨rfl, rfl⟩
    · exact am_off hb
    · exact am_post hb
    · exact am_pre hb
  have hbase : a.base = b := by
    rcases hab with ⟨rfl, rfl, _⟩ | ⟨rfl, rfl⟩ | ⟨rfl, rfl⟩ <;> rfl
  have he := st_exec (M := M) h ht hok
  rw [hbase] at he
  obtain ⟨l1, _⟩ := h.lt
  have hl : sgn 9 (low 9 o) = o := sgn_low (by decide) h1 h2
  have hp3 : p = 0 ∨ p = 1 ∨ p = 3 := by omega
  have hW : Word (0x38000000 ||| (size <<< 30) ||| (low 9 o <<< 12) ||| (p <<< 10) ||| (b.num <<< 5) ||| t.num) (size * 512 + 0x1c0 + 0 * 32 + 0 * 2) (low 9 o / 16) (low 9 o % 16 * 4 + p) b.num t.num :=
    word9 (stc size l1).1 (by omega) (by omega) (low_lt _ _) (by omega) (num_lt _) (num_lt _)
  refine good hW (st_match h) ?_ ((dec_9 l1 (by decide) (by decide) hp3).trans (by rw [hl]; rfl)) he
  have r1 : o ≤ 4095 ∧ -4096 ≤ o := by omega
  rcases hab with ⟨rfl, rfl, hneg⟩ | ⟨rfl, rfl⟩ | ⟨rfl, rfl⟩
  · have r2 : ¬ 0 ≤ o := by omega
    rcases h with ⟨rfl, rfl, rfl⟩ | ⟨rfl, rfl, rfl⟩ | ⟨rfl, rfl, rfl⟩ | ⟨rfl, rfl, rfl⟩
    all_goals simp only [instOf, Sd.raw, Addr.op, handle, asmLdrstr, ldNum, stNum, r1, r2, and_self, if_true, if_false, bit, W_STUR]
    all_goals simp
  · rcases h with ⟨rfl, rfl, rfl⟩ | ⟨rfl, rfl, rfl⟩ | ⟨rfl, rfl, rfl⟩ | ⟨rfl, rfl, rfl⟩
    all_goals simp only [instOf, Sd.raw, Addr.op, handle, asmLdrstr, ldNum, stNum, r1, and_self, if_true, bit, W_STR, prePost]
    all_goals simp
  · rcases h with ⟨rfl, rfl, rfl⟩ | ⟨rfl, rfl, rfl⟩ | ⟨rfl, rfl, rfl⟩ | ⟨rfl, rfl, rfl⟩
    all_goals simp only [instOf, Sd.raw, Addr.op, handle, asmLdrstr, ldNum, stNum, r1, and_self, if_true, bit, W_STR, prePost]
    all_goals simp

theorem str_idx_good {k : Sd} {q : Bool} {size : Nat} (h : StTab k q size) {t b m : R} {e : Nat} (ht : t ≠ .sp) (hb : b ≠ .zr)
    (hm : m ≠ .sp) : Good M (.str k q t (.idx b m e)) := by
  have he := st_exec (M := M) h ht (am_idx (size := size) (e := e) hb hm)
  obtain ⟨l1, _⟩ := h.lt
  have hW : Word (W_STR_R size t.num b.num m.num 0 (optOf e)) (size * 512 + 0x1c1 + 0 * 32 + 0 * 2) m.num (optOf e * 8 + 2) b.num t.num :=
    wordR (stc size l1).2.2 (by omega) (by omega) (opt3 e) (num_lt _) (num_lt _) (num_lt _)
  refine good hW (st_match h) ?_ (dec_reg l1 (by decide) (by decide) (opt3 e)) he
  rcases h with ⟨rfl, rfl, rfl⟩ | ⟨rfl, rfl, rfl⟩ | ⟨rfl, rfl, rfl⟩ | ⟨rfl, rfl, rfl⟩
  all_goals simp only [instOf, Sd.raw, Addr.op, handle, asmLdrstr, ldNum, stNum, if_true, bit]
  all_goals simp

/-! ### Floating point -/

/-- Three bits of the instruction: whether it loads. -/
theorem fpc (d ld : Bool) : (if ld then 0xbc400000 else 0xbc000000) ||| bit d <<< 30 = ((2 + bit d) * 512 + 0x1c0 + 1 * 32 + bit ld * 2) <<< 21 ∧
    (if ld then 0xbd400000 else 0xbd000000) ||| bit d <<< 30 = ((2 + bit d) * 512 + 0x1c8 + 1 * 32 + bit ld * 2) <<< 21 := by
  revert d ld
  decide

/-- Both instructions at once. -/
def fmem (ld dbl : Bool) (t : Fin 32) (a : Addr) : Req := if ld then .fldr dbl t a else .fstr dbl t a

theorem f_exec {ld dbl : Bool} {am : Am} {a : Addr} {t : Fin 32} (ha : AmOk (2 + bit dbl) am a) :
    ∃ i, mem1 (2 + bit dbl) 1 (bit ld) am a.base.num t = some i ∧ ∀ s, exec M i s = effect M (fmem ld dbl t a) s := by
  cases ld <;> cases dbl
  · refine ⟨.fst false am _ _, rfl, fun s => ?_⟩
    have h1 : am.addr s 2 a.base.num = a.at s := (ha s).1
    simp only [exec, effect, fmem, Bool.false_eq_true, if_false, h1, (ha s).2]
  · refine ⟨.fst true am _ _, rfl, fun s => ?_⟩
    have h1 : am.addr s 3 a.base.num = a.at s := (ha s).1
    simp only [exec, effect, fmem, Bool.false_eq_true, if_false, if_true, h1, (ha s).2]
  · refine ⟨.fld false am _ _, rfl, fun s => ?_⟩
    have h1 : am.addr s 2 a.base.num = a.at s := (ha s).1
    simp only [exec, effect, fmem, Bool.false_eq_true, if_false, if_true, h1, (ha s).2]
  · refine ⟨.fld true am _ _, rfl, fun s => ?_⟩
    have h1 : am.addr s 3 a.base.num = a.at s := (ha s).1
    simp only [exec, effect, fmem, if_true, h1, (ha s).2]

theorem f_match {ld dbl : Bool} {t : Fin 32} {a : Addr} : matchOp (instOf (fmem ld dbl t a)) = some .f := by
  cases ld <;> cases dbl <;> cases a <;> simp only [fmem, if_true, Bool.false_eq_true, if_false] <;> mt

theorem f_uoff_good {ld dbl : Bool} {t : Fin 32} {b : R} {v : Nat} (hb : b ≠ .zr) (hv : v * 2 ^ (2 + bit dbl) < 512) :
    Good M (fmem ld dbl t (.off b (v * 2 ^ (2 + bit dbl) : Nat))) := by
  obtain ⟨i, hi, he⟩ := f_exec (M := M) (ld := ld) (dbl := dbl) (t := t) (am_uoff (size := 2 + bit dbl) hb (k := v) rfl)
  have hv2 : v < 4096 := Nat.lt_of_le_of_lt (Nat.le_mul_of_pos_right v (Nat.pow_pos (by decide))) (Nat.lt_trans hv (by decide))
  have hl : low 12 v = v := by
    rw [low_nat (by omega) (by omega)]
    rfl
  have hbd : bit dbl < 2 := by cases dbl <;> decide
  have hbl : bit ld < 2 := by cases ld <;> decide
  have hW : Word ((if ld then 0xbd400000 else 0xbd000000) ||| bit dbl <<< 30 ||| v <<< 10 ||| b.num <<< 5 ||| t)
      ((2 + bit dbl) * 512 + 0x1c8 + 1 * 32 + bit ld * 2 + v / 2048) (v / 64 % 32) (v % 64) b.num t :=
    word12 (fpc dbl ld).2 (by omega) (by omega) (by omega) hv2 (num_lt _) t.isLt
  refine good hW f_match ?_ ((dec_uoff (by omega) (by decide) (by omega) hv2).trans hi) he
  have r1 : ((v * 2 ^ (2 + bit dbl) : Nat) : Int) < 512 ∧ -512 ≤ ((v * 2 ^ (2 + bit dbl) : Nat) : Int) := by omega
  have r2 : 0 ≤ ((v * 2 ^ (2 + bit dbl) : Nat) : Int) := by omega
  have r3 : ((v * 2 ^ (2 + bit dbl) : Nat) : Int) / 2 ^ (2 + bit dbl) = (v : Int) := by
    have : ((v * 2 ^ (2 + bit dbl) : Nat) : Int) = (v : Int) * 2 ^ (2 + bit dbl) := by norm_cast
    rw [this, Int.mul_ediv_cancel]
    exact Int.ne_of_gt (Int.pow_pos (by omega))
  cases ld
  · simp only [fmem, Bool.false_eq_true, if_false, instOf, Addr.op, handle, asmFLdrstr, r1, r2, r3, and_self, if_true, F_STR_UIMM, hl]
  · simp only [fmem, if_true, instOf, Addr.op, handle, asmFLdrstr, r1, r2, r3, and_self, F_LDR_UIMM, hl]

theorem f_sym_good {ld dbl : Bool} {t : Fin 32} {b : R} (hb : b ≠ .zr) : Good M (fmem ld dbl t (.sym b)) := by
  obtain ⟨i, hi, he⟩ := f_exec (M := M) (ld := ld) (dbl := dbl) (t := t) (am_sym (size := 2 + bit dbl) hb)
  have hbd : bit dbl < 2 := by cases dbl <;> decide
  have hbl : bit ld < 2 := by cases ld <;> decide
  have hW : Word ((if ld then 0xbd400000 else 0xbd000000) ||| bit dbl <<< 30 ||| 0 <<< 10 ||| b.num <<< 5 ||| t)
      ((2 + bit dbl) * 512 + 0x1c8 + 1 * 32 + bit ld * 2 + 0 / 2048) (0 / 64 % 32) (0 % 64) b.num t :=
    word12 (fpc dbl ld).2 (by omega) (by omega) (by omega) (by decide) (num_lt _) t.isLt
  refine good hW f_match ?_ ((dec_uoff (by omega) (by decide) (by omega) (by decide)).trans hi) he
  cases ld <;> cases dbl <;> rfl

theorem f_9_good {ld dbl : Bool} {t : Fin 32} {b : R} {o : Int} {p : Nat} {a : Addr}
    (hab : (p = 0 ∧ a = .off b o ∧ o < 0) ∨ (p = 1 ∧ a = .post b o) ∨ (p = 3 ∧ a = .pre b o)) (hb : b ≠ .zr) (h1 : -256 ≤ o) (h2 : o < 256) :
    Good M (fmem ld dbl t a) := by
  have hok : AmOk (2 + bit dbl) (amOf p o) a := by
    rcases hab with ⟨rfl, rfl, _⟩ | ⟨rfl, rfl⟩ | ⟨rfl, rfl⟩
    · exact am_off hb
    · exact am_post hb
    · exact am_pre hb
  have hbase : a.base = b := by
    rcases hab with ⟨rfl, rfl, _⟩ | ⟨rfl, rfl⟩ | ⟨rfl, rfl⟩ <;> rfl
  obtain ⟨i, hi, he⟩ := f_exec (M := M) (ld := ld) (t := t) hok
  rw [hbase] at hi
  have hbd : bit dbl < 2 := by cases dbl <;> decide
  have hbl : bit ld < 2 := by cases ld <;> decide
  have hl : sgn 9 (low 9 o) = o := sgn_low (by decide) h1 h2
  have hp3 : p = 0 ∨ p = 1 ∨ p = 3 := by omega
  have hW : Word ((if ld then 0xbc400000 else 0xbc000000) ||| bit dbl <<< 30 ||| (low 9 o <<< 12) ||| (p <<< 10) ||| (b.num <<< 5) ||| t)
      ((2 + bit dbl) * 512 + 0x1c0 + 1 * 32 + bit ld * 2) (low 9 o / 16) (low 9 o % 16 * 4 + p) b.num t :=
    word9 (fpc dbl ld).1 (by omega) (by omega) (low_lt _ _) (by omega) (num_lt _) t.isLt
  refine good hW f_match ?_ ((dec_9 (by omega) (by decide) (by omega) hp3).trans (by rw [hl]; exact hi)) he
  have r1 : o < 512 ∧ -512 ≤ o := by omega
  rcases hab with ⟨rfl, rfl, hneg⟩ | ⟨rfl, rfl⟩ | ⟨rfl, rfl⟩
  · have r2 : ¬ 0 ≤ o := by omega
    cases ld
    · simp only [fmem, Bool.false_eq_true, if_false, instOf, Addr.op, handle, asmFLdrstr, r1, r2, and_self, if_true, F_STUR]
      simp
    · simp only [fmem, if_false, instOf, Addr.op, handle, asmFLdrstr, r1, r2, and_self, if_true, F_LDUR]
      simp
  · cases ld
    · simp only [fmem, Bool.false_eq_true, if_false, instOf, Addr.op, handle, asmFLdrstr, r1, and_self, if_true, F_STR, prePost]
      simp
    · simp only [fmem, instOf, Addr.op, handle, asmFLdrstr, r1, and_self, if_true, F_LDR, prePost]
      simp
  · cases ld
    · simp only [fmem, Bool.false_eq_true, if_false, instOf, Addr.op, handle, asmFLdrstr, r1, and_self, if_true, F_STR, prePost]
      simp
    · simp only [fmem, instOf, Addr.op, handle, asmFLdrstr, r1, and_self, if_true, F_LDR, prePost]
      simp

/-! ### Pairs -/

theorem dec_pair' {opc vec ld pp c rm x n d : Nat} (hs : opc < 4) (hv : vec < 2) (hl : ld < 2) (hp : pp = 1 ∨ pp = 2 ∨ pp = 3) (hc : c = 0 ∨ c = 1) :
    decodeF (opc * 512 + 0x140 + vec * 32 + pp * 4 + ld * 2 + c) rm x n d =
      mem2 opc vec ld (fun k => (if pp = 2 then Am.off else if pp = 1 then Am.post else Am.pre) (k * sgn 7 (c * 64 + rm * 2 + x / 32))) (x % 32) n d := by
  have s4 : opc = 0 ∨ opc = 1 ∨ opc = 2 ∨ opc = 3 := by omega
  have v2 : vec = 0 ∨ vec = 1 := by omega
  have l2 : ld = 0 ∨ ld = 1 := by omega
  rcases s4 with rfl | rfl | rfl | rfl <;> rcases v2 with rfl | rfl <;> rcases l2 with rfl | rfl <;> rcases hp with rfl | rfl | rfl <;>
    rcases hc with rfl | rfl <;> rfl

theorem dec_pair {opc vec ld pp v u n d : Nat} (hs : opc < 4) (hv : vec < 2) (hl : ld < 2) (hp : pp = 1 ∨ pp = 2 ∨ pp = 3) (h : v < 128) (hu : u < 32) :
    decodeF (opc * 512 + 0x140 + vec * 32 + pp * 4 + ld * 2 + v / 64) (v / 2 % 32) (v % 2 * 32 + u) n d =
      mem2 opc vec ld (fun k => (if pp = 2 then Am.off else if pp = 1 then Am.post else Am.pre) (k * sgn 7 v)) u n d := by
  rw [dec_pair' hs hv hl hp (by omega)]
  have h1 : v / 64 * 64 + v / 2 % 32 * 2 + (v % 2 * 32 + u) / 32 = v := by omega
  have h2 : (v % 2 * 32 + u) % 32 = u := by omega
  rw [h1, h2]

/-- The addresses of pairs. -/
def PairTab (b : R) (o : Int) (pp : Nat) (a : Addr) : Prop :=
  (pp = 2 ∧ a = .off b o) ∨ (pp = 1 ∧ a = .post b o) ∨ (pp = 3 ∧ a = .pre b o)

theorem pair_am {b : R} {o : Int} {pp : Nat} {a : Addr} (h : PairTab b o pp a) (hb : b ≠ .zr) :
    AmOk 0 ((if pp = 2 then Am.off else if pp = 1 then Am.post else Am.pre) o) a := by
  rcases h with ⟨rfl, rfl⟩ | ⟨rfl, rfl⟩ | ⟨rfl, rfl⟩
  · exact am_off hb
  · exact am_post hb
  · exact am_pre hb

theorem pair_off {o : Int} (h8 : o % 8 = 0) (h1 : -512 ≤ o) (h2 : o < 512) : (8 : Int) * sgn 7 (low 7 (o / 8)) = o := by
  rw [sgn_low (by decide) (by omega) (by omega)]
  omega

def pmem (ld : Bool) (t u : R) (a : Addr) : Req := if ld then .ldp true t u a else .stp true t u a

theorem pair_good {ld : Bool} {t u b : R} {o : Int} {pp : Nat} {a : Addr} (h : PairTab b o pp a) (hb : b ≠ .zr) (ht : t ≠ .sp) (hu : u ≠ .sp)
    (h8 : o % 8 = 0) (h1 : -512 ≤ o) (h2 : o < 512) : Good M (pmem ld t u a) := by
  have hok := pair_am h hb
  have hbase : a.base = b := by
    rcases h with ⟨rfl, rfl⟩ | ⟨rfl, rfl⟩ | ⟨rfl, rfl⟩ <;> rfl
  have hp3 : pp = 1 ∨ pp = 2 ∨ pp = 3 := by
    rcases h with ⟨rfl, rfl⟩ | ⟨rfl, rfl⟩ | ⟨rfl, rfl⟩ <;> decide
  have hx : ∃ i, mem2 2 0 (bit ld) (fun k => (if pp = 2 then Am.off else if pp = 1 then Am.post else Am.pre) (k * sgn 7 (low 7 (o / 8)))) u.num b.num t.num = some i ∧
      ∀ s, exec M i s = effect M (pmem ld t u a) s := by
    have h8' : ((8 : Nat) : Int) * sgn 7 (low 7 (o / 8)) = o := pair_off h8 h1 h2
    cases ld
    · refine ⟨.stp true _ _ _ _, rfl, fun s => ?_⟩
      have ha := hok s
      rw [hbase] at ha
      simp only [h8', exec, effect, pmem, Bool.false_eq_true, if_false, if_true, ha.1, ha.2, xz_num s ht, xz_num s hu]
    · refine ⟨.ldp true _ _ _ _, rfl, fun s => ?_⟩
      have ha := hok s
      rw [hbase] at ha
      simp only [h8', exec, effect, pmem, if_true, ha.1, ha.2, putz_num _ _ ht, putz_num _ _ hu]
  obtain ⟨i, hi, he⟩ := hx
  have hbl : bit ld < 2 := by cases ld <;> decide
  have hc : (if ld then 0x28400000 else 0x28000000) ||| 1 <<< 31 ||| pp <<< 23 = (2 * 512 + 0x140 + 0 * 32 + pp * 4 + bit ld * 2) <<< 21 := by
    cases ld <;> rcases hp3 with rfl | rfl | rfl <;> rfl
  have hW : Word ((if ld then 0x28400000 else 0x28000000) ||| 1 <<< 31 ||| pp <<< 23 ||| low 7 (o / 8) <<< 15 ||| u.num <<< 10 ||| b.num <<< 5 ||| t.num)
      (2 * 512 + 0x140 + 0 * 32 + pp * 4 + bit ld * 2 + low 7 (o / 8) / 64) (low 7 (o / 8) / 2 % 32) (low 7 (o / 8) % 2 * 32 + u.num) b.num t.num :=
    word7 hc (by omega) (by omega) (by omega) (low_lt _ _) (num_lt _) (num_lt _) (num_lt _)
  have hm : matchOp (instOf (pmem ld t u a)) = some .same := by
    rcases h with ⟨rfl, rfl⟩ | ⟨rfl, rfl⟩ | ⟨rfl, rfl⟩ <;> cases ld <;> simp only [pmem, if_true, Bool.false_eq_true, if_false] <;> mt
  refine good hW hm ?_ ((dec_pair (by decide) (by decide) hbl hp3 (low_lt _ _) (num_lt _)).trans hi) he
  have r1 : o < 512 ∧ -512 ≤ o := by omega
  rcases h with ⟨rfl, rfl⟩ | ⟨rfl, rfl⟩ | ⟨rfl, rfl⟩ <;> cases ld <;>
    simp [pmem, instOf, Addr.op, handle, asmLdpstp, r1, W_LDP, W_STP, prePost, bit]

def fpmem (ld : Bool) (t u : Fin 32) (a : Addr) : Req := if ld then .fldp true t u a else .fstp true t u a

theorem fpair_good {ld : Bool} {t u : Fin 32} {b : R} {o : Int} {pp : Nat} {a : Addr} (h : PairTab b o pp a) (hb : b ≠ .zr)
    (h8 : o % 8 = 0) (h1 : -512 ≤ o) (h2 : o < 512) : Good M (fpmem ld t u a) := by
  have hok := pair_am h hb
  have hbase : a.base = b := by
    rcases h with ⟨rfl, rfl⟩ | ⟨rfl, rfl⟩ | ⟨rfl, rfl⟩ <;> rfl
  have hp3 : pp = 1 ∨ pp = 2 ∨ pp = 3 := by
    rcases h with ⟨rfl, rfl⟩ | ⟨rfl, rfl⟩ | ⟨rfl, rfl⟩ <;> decide
  have hx : ∃ i, mem2 1 1 (bit ld) (fun k => (if pp = 2 then Am.off else if pp = 1 then Am.post else Am.pre) (k * sgn 7 (low 7 (o / 8)))) u b.num t = some i ∧
      ∀ s, exec M i s = effect M (fpmem ld t u a) s := by
    have h8' : ((8 : Nat) : Int) * sgn 7 (low 7 (o / 8)) = o := pair_off h8 h1 h2
    cases ld
    · refine ⟨.fstp true _ _ _ _, rfl, fun s => ?_⟩
      have ha := hok s
      rw [hbase] at ha
      simp only [h8', exec, effect, fpmem, Bool.false_eq_true, if_false, if_true, ha.1, ha.2]
    · refine ⟨.fldp true _ _ _ _, rfl, fun s => ?_⟩
      have ha := hok s
      rw [hbase] at ha
      simp only [h8', exec, effect, fpmem, if_true, ha.1, ha.2]
  obtain ⟨i, hi, he⟩ := hx
  have hbl : bit ld < 2 := by cases ld <;> decide
  have hc : (if ld then 0x2c400000 else 0x2c000000) ||| 1 <<< 30 ||| pp <<< 23 = (1 * 512 + 0x140 + 1 * 32 + pp * 4 + bit ld * 2) <<< 21 := by
    cases ld <;> rcases hp3 with rfl | rfl | rfl <;> rfl
  have hW : Word ((if ld then 0x2c400000 else 0x2c000000) ||| 1 <<< 30 ||| pp <<< 23 ||| low 7 (o / 8) <<< 15 ||| (u : Nat) <<< 10 ||| b.num <<< 5 ||| (t : Nat))
      (1 * 512 + 0x140 + 1 * 32 + pp * 4 + bit ld * 2 + low 7 (o / 8) / 64) (low 7 (o / 8) / 2 % 32) (low 7 (o / 8) % 2 * 32 + u) b.num t :=
    word7 hc (by omega) (by omega) (by omega) (low_lt _ _) u.isLt (num_lt _) t.isLt
  have hm : matchOp (instOf (fpmem ld t u a)) = some .f := by
    rcases h with ⟨rfl, rfl⟩ | ⟨rfl, rfl⟩ | ⟨rfl, rfl⟩ <;> cases ld <;> simp only [fpmem, if_true, Bool.false_eq_true, if_false] <;> mt
  refine good hW hm ?_ ((dec_pair (by decide) (by decide) hbl hp3 (low_lt _ _) u.isLt).trans hi) he
  have r1 : o < 512 ∧ -512 ≤ o := by omega
  rcases h with ⟨rfl, rfl⟩ | ⟨rfl, rfl⟩ | ⟨rfl, rfl⟩ <;> cases ld <;>
    simp [fpmem, instOf, Addr.op, handle, asmFLdpstp, r1, F_LDP, F_STP, prePost, bit]

end Nature.Arm64
