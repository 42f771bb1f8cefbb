import Verif.Arm64.Cases3
/-! Loads and stores. -/
namespace Nature.Arm64
variable {M : Fpu}

/-! ### Memory -/

theorem rd_lt (m : BitVec 64 → BitVec 8) : ∀ (k : Nat) (a : BitVec 64), k ≤ 8 → (rd m a k).toNat < 2 ^ (8 * k)
  | 0, a, _ => by simp [rd]
  | k + 1, a, h => by
    have ih := rd_lt m k (a + 1) (by omega)
    have hm := (m a).isLt
    rw [rd, BitVec.toNat_or, BitVec.toNat_setWidth, BitVec.toNat_shiftLeft, Nat.shiftLeft_eq]
    apply Nat.or_lt_two_pow
    · refine Nat.lt_of_le_of_lt (Nat.mod_le _ _) (Nat.lt_of_lt_of_le hm (Nat.pow_le_pow_right (by decide) (by omega)))
    · refine Nat.lt_of_le_of_lt (Nat.mod_le _ _) ?_
      have : (2 : Nat) ^ (8 * (k + 1)) = 2 ^ (8 * k) * 2 ^ 8 := by rw [← Nat.pow_add]; congr 1
      rw [this]
      exact Nat.mul_lt_mul_of_pos_right ih (by decide)

/-- Up to four bytes fit into a 32-bit register. -/
theorem rd_trunc (m : BitVec 64 → BitVec 8) (a : BitVec 64) {k : Nat} {q : Bool} (h : k ≤ 4 ∨ (q = true ∧ k ≤ 8)) :
    ((rd m a k).setWidth (wd q)).setWidth 64 = (rd m a k).setWidth 64 := by
  apply BitVec.eq_of_toNat_eq
  simp only [BitVec.toNat_setWidth]
  have hlt : (rd m a k).toNat < 2 ^ wd q := by
    rcases h with h | ⟨rfl, h⟩
    · refine Nat.lt_of_lt_of_le (rd_lt m k a (by omega)) (Nat.pow_le_pow_right (by decide) ?_)
      have : 32 ≤ wd q := by cases q <;> decide
      omega
    · exact (rd m a k).isLt
  rw [Nat.mod_eq_of_lt hlt]

/-! ### Decoding -/

theorem dec_uoff' {size vec opc c rm x n d : Nat} (hs : size < 4) (hv : vec < 2) (ho : opc < 4) (hc : c = 0 ∨ c = 1) :
    decodeF (size * 512 + 0x1c8 + vec * 32 + opc * 2 + c) rm x n d = mem1 size vec opc (.uoff (c * 2 ^ 11 + rm * 2 ^ 6 + x)) n d := by
  have s4 : size = 0 ∨ size = 1 ∨ size = 2 ∨ size = 3 := by omega
  have v2 : vec = 0 ∨ vec = 1 := by omega
  have o4 : opc = 0 ∨ opc = 1 ∨ opc = 2 ∨ opc = 3 := by omega
  rcases s4 with rfl | rfl | rfl | rfl <;> rcases v2 with rfl | rfl <;> rcases o4 with rfl | rfl | rfl | rfl <;>
    rcases hc with rfl | rfl <;> rfl

theorem dec_uoff {size vec opc v n d : Nat} (hs : size < 4) (hv : vec < 2) (ho : opc < 4) (h : v < 4096) :
    decodeF (size * 512 + 0x1c8 + vec * 32 + opc * 2 + v / 2048) (v / 64 % 32) (v % 64) n d = mem1 size vec opc (.uoff v) n d := by
  rw [dec_uoff' hs hv ho (by omega)]
  have : v / 2048 * 2 ^ 11 + v / 64 % 32 * 2 ^ 6 + v % 64 = v := by omega
  rw [this]

theorem dec_off {size vec opc rm x n d : Nat} (hs : size < 4) (hv : vec < 2) (ho : opc < 4) :
    decodeF (size * 512 + 0x1c0 + vec * 32 + opc * 2) rm x n d = match x % 4 with
        | 0 => mem1 size vec opc (.off (sgn 9 (rm * 16 + x / 4))) n d
        | 1 => mem1 size vec opc (.post (sgn 9 (rm * 16 + x / 4))) n d
        | 3 => mem1 size vec opc (.pre (sgn 9 (rm * 16 + x / 4))) n d
        | _ => none := by
  have s4 : size = 0 ∨ size = 1 ∨ size = 2 ∨ size = 3 := by omega
  have v2 : vec = 0 ∨ vec = 1 := by omega
  have o4 : opc = 0 ∨ opc = 1 ∨ opc = 2 ∨ opc = 3 := by omega
  rcases s4 with rfl | rfl | rfl | rfl <;> rcases v2 with rfl | rfl <;> rcases o4 with rfl | rfl | rfl | rfl <;> rfl

/-- The way of addressing by the two bits below the offset. -/
def amOf : Nat → Int → Am
  | 0, o => .off o
  | 1, o => .post o
  | _, o => .pre o

theorem dec_9 {size vec opc v p n d : Nat} (hs : size < 4) (hv : vec < 2) (ho : opc < 4) (hp : p = 0 ∨ p = 1 ∨ p = 3) :
    decodeF (size * 512 + 0x1c0 + vec * 32 + opc * 2) (v / 16) (v % 16 * 4 + p) n d = mem1 size vec opc (amOf p (sgn 9 v)) n d := by
  rw [dec_off hs hv ho]
  rcases hp with rfl | rfl | rfl
  · have h1 : (v % 16 * 4 + 0) % 4 = 0 := by omega
    have h2 : v / 16 * 16 + (v % 16 * 4 + 0) / 4 = v := by omega
    rw [h1, h2]
    rfl
  · have h1 : (v % 16 * 4 + 1) % 4 = 1 := by omega
    have h2 : v / 16 * 16 + (v % 16 * 4 + 1) / 4 = v := by omega
    rw [h1, h2]
    rfl
  · have h1 : (v % 16 * 4 + 3) % 4 = 3 := by omega
    have h2 : v / 16 * 16 + (v % 16 * 4 + 3) / 4 = v := by omega
    rw [h1, h2]
    rfl

theorem dec_reg {size vec opc o m n d : Nat} (hs : size < 4) (hv : vec < 2) (ho : opc < 4) (hp : o = 2 ∨ o = 3 ∨ o = 6) :
    decodeF (size * 512 + 0x1c1 + vec * 32 + opc * 2) m (o * 8 + 2) n d = mem1 size vec opc (.reg m o false) n d := by
  have s4 : size = 0 ∨ size = 1 ∨ size = 2 ∨ size = 3 := by omega
  have v2 : vec = 0 ∨ vec = 1 := by omega
  have o4 : opc = 0 ∨ opc = 1 ∨ opc = 2 ∨ opc = 3 := by omega
  rcases s4 with rfl | rfl | rfl | rfl <;> rcases v2 with rfl | rfl <;> rcases o4 with rfl | rfl | rfl | rfl <;> rcases hp with rfl | rfl | rfl <;> rfl

/-! ### Addresses -/

/-- The processor's address and what becomes of the base are what the assembly language says. -/
def AmOk (size : Nat) (am : Am) (a : Addr) : Prop :=
  ∀ s, am.addr s size a.base.num = a.at s ∧ ∀ t, am.back s a.base.num t = a.then s t

theorem am_uoff {size : Nat} {b : R} {o : Int} (hb : b ≠ .zr) {k : Nat} (hk : o = (k * 2 ^ size : Nat)) : AmOk size (.uoff k) (.off b o) := by
  intro s
  refine ⟨?_, fun t => rfl⟩
  subst hk
  simp only [Am.addr, Addr.base, Addr.at, xs_num s hb]
  rw [BitVec.ofInt_natCast]

theorem am_sym {size : Nat} {b : R} (hb : b ≠ .zr) : AmOk size (.uoff 0) (.sym b) := by
  intro s
  refine ⟨?_, fun t => rfl⟩
  simp [Am.addr, Addr.base, Addr.at, xs_num s hb]

theorem am_off {size : Nat} {b : R} {o : Int} (hb : b ≠ .zr) : AmOk size (.off o) (.off b o) := by
  intro s
  refine ⟨?_, fun t => rfl⟩
  simp [Am.addr, Addr.base, Addr.at, xs_num s hb]

theorem am_pre {size : Nat} {b : R} {o : Int} (hb : b ≠ .zr) : AmOk size (.pre o) (.pre b o) := by
  intro s
  refine ⟨?_, fun t => ?_⟩
  · simp [Am.addr, Addr.base, Addr.at, xs_num s hb]
  · simp only [Am.back, Addr.base, Addr.then, xs_num s hb, sets_num t _ hb]

theorem am_post {size : Nat} {b : R} {o : Int} (hb : b ≠ .zr) : AmOk size (.post o) (.post b o) := by
  intro s
  refine ⟨?_, fun t => ?_⟩
  · simp [Am.addr, Addr.base, Addr.at, xs_num s hb]
  · simp only [Am.back, Addr.base, Addr.then, xs_num s hb, sets_num t _ hb]

theorem am_idx {size : Nat} {b m : R} {e : Nat} (hb : b ≠ .zr) (hm : m ≠ .sp) : AmOk size (.reg m.num (optOf e) false) (.idx b m e) := by
  intro s
  refine ⟨?_, fun t => rfl⟩
  simp only [Am.addr, Addr.base, Addr.at, xs_num s hb, xz_num s hm]
  match e with
  | 0 => simp [optOf, extend]
  | 1 => simp [optOf, extend]
  | 2 => simp [optOf, extend]
  | e + 3 => simp [optOf, extend]

/-! ### Loads -/

/-- The loads for which the size field is right: size and sign. -/
def LdTab (k : Ld) (q : Bool) (size sg : Nat) : Prop :=
  (k = .b ∧ q = false ∧ size = 0 ∧ sg = 0) ∨ (k = .h ∧ size = 1 ∧ sg = 0) ∨ (k = .w ∧ q = false ∧ size = 2 ∧ sg = 0) ∨
  (k = .w ∧ q = true ∧ size = 3 ∧ sg = 0) ∨ (k = .sb ∧ q = false ∧ size = 0 ∧ sg = 1) ∨ (k = .sh ∧ q = false ∧ size = 1 ∧ sg = 1)

theorem LdTab.lt {k : Ld} {q : Bool} {size sg : Nat} (h : LdTab k q size sg) : size < 4 ∧ sg < 2 ∧ k.bytes q = 2 ^ size := by
  rcases h with ⟨rfl, rfl, rfl, rfl⟩ | ⟨rfl, rfl, rfl⟩ | ⟨rfl, rfl, rfl, rfl⟩ | ⟨rfl, rfl, rfl, rfl⟩ | ⟨rfl, rfl, rfl, rfl⟩ | ⟨rfl, rfl, rfl, rfl⟩ <;>
    exact ⟨by decide, by decide, rfl⟩

theorem ld_exec {k : Ld} {q : Bool} {size sg : Nat} (h : LdTab k q size sg) {am : Am} {a : Addr} {t : R} (ht : t ≠ .sp)
    (ha : AmOk size am a) : ∃ i, mem1 size 0 (1 + 2 * sg) am a.base.num t.num = some i ∧ ∀ s, exec M i s = effect M (.ldr k q t a) s := by
  have hw : ∀ (s : St) {w : Nat} (v : BitVec w), s.putz t.num v = t.put s v := fun s w v => putz_num s v ht
  have hu : ∀ (s : St) (n : Nat) (q : Bool), (n ≤ 4 ∨ (q = true ∧ n ≤ 8)) → t.put s (rd s.mem (a.at s) n) = t.put s ((rd s.mem (a.at s) n).setWidth (wd q)) := by
    intro s n q hn
    unfold R.put
    rw [rd_trunc s.mem (a.at s) hn]
  rcases h with ⟨rfl, rfl, rfl, rfl⟩ | ⟨rfl, rfl, rfl⟩ | ⟨rfl, rfl, rfl, rfl⟩ | ⟨rfl, rfl, rfl, rfl⟩ | ⟨rfl, rfl, rfl, rfl⟩ | ⟨rfl, rfl, rfl, rfl⟩
  · refine ⟨.ld 0 am _ _, rfl, fun s => ?_⟩
    simp only [exec, effect, (ha s).1, (ha s).2, hw, Ld.bytes, Ld.val]
    rw [hu s _ false (by decide)]
  · refine ⟨.ld 1 am _ _, rfl, fun s => ?_⟩
    simp only [exec, effect, (ha s).1, (ha s).2, hw, Ld.bytes, Ld.val]
    rw [hu s _ q (by omega)]
  · refine ⟨.ld 2 am _ _, rfl, fun s => ?_⟩
    simp only [exec, effect, (ha s).1, (ha s).2, hw, Ld.bytes, Ld.val]
    rw [hu s _ false (by decide)]
    rfl
  · refine ⟨.ld 3 am _ _, rfl, fun s => ?_⟩
    simp only [exec, effect, (ha s).1, (ha s).2, hw, Ld.bytes, Ld.val]
    rw [hu s _ true (by decide)]
    rfl
  · refine ⟨.lds 0 false am _ _, rfl, fun s => ?_⟩
    simp only [exec, effect, (ha s).1, (ha s).2, hw, Ld.bytes, Ld.val]
  · refine ⟨.lds 1 false am _ _, rfl, fun s => ?_⟩
    simp only [exec, effect, (ha s).1, (ha s).2, hw, Ld.bytes, Ld.val]

theorem ld_match {k : Ld} {q : Bool} {t : R} {a : Addr} : matchOp (instOf (.ldr k q t a)) = some .same := by
  cases k <;> cases q <;> cases a <;> mt

theorem ldc (size sg : Nat) (hs : size < 4) (hg : sg < 2) : 0x38400000 ||| size <<< 30 ||| sg <<< 23 = (size * 512 + 0x1c0 + 0 * 32 + (1 + 2 * sg) * 2) <<< 21 ∧
    0x39400000 ||| size <<< 30 ||| sg <<< 23 = (size * 512 + 0x1c8 + 0 * 32 + (1 + 2 * sg) * 2) <<< 21 ∧
    0x38600800 ||| size <<< 30 ||| sg <<< 23 = (size * 512 + 0x1c1 + 0 * 32 + (1 + 2 * sg) * 2) <<< 21 ||| 2 <<< 10 := by
  have : ∀ s : Fin 4, ∀ g : Fin 2, 0x38400000 ||| (s : Nat) <<< 30 ||| (g : Nat) <<< 23 = ((s : Nat) * 512 + 0x1c0 + 0 * 32 + (1 + 2 * (g : Nat)) * 2) <<< 21 ∧
    0x39400000 ||| (s : Nat) <<< 30 ||| (g : Nat) <<< 23 = ((s : Nat) * 512 + 0x1c8 + 0 * 32 + (1 + 2 * (g : Nat)) * 2) <<< 21 ∧
    0x38600800 ||| (s : Nat) <<< 30 ||| (g : Nat) <<< 23 = ((s : Nat) * 512 + 0x1c1 + 0 * 32 + (1 + 2 * (g : Nat)) * 2) <<< 21 ||| 2 <<< 10 := by decide
  exact this ⟨size, hs⟩ ⟨sg, hg⟩

theorem scaled_nat {size v : Nat} (hv : v * 2 ^ size < 4096) : v < 4096 :=
  Nat.lt_of_le_of_lt (Nat.le_mul_of_pos_right v (Nat.pow_pos (by decide))) hv

theorem ldr_uoff_good {k : Ld} {q : Bool} {size sg : Nat} (h : LdTab k q size sg) {t b : R} {v : Nat} (ht : t ≠ .sp) (hb : b ≠ .zr)
    (hv : v * 2 ^ size < 4096) : Good M (.ldr k q t (.off b (v * 2 ^ size : Nat))) := by
  obtain ⟨i, hi, he⟩ := ld_exec (M := M) h ht (am_uoff (size := size) hb (k := v) rfl)
  obtain ⟨l1, l2, _⟩ := h.lt
  have hv2 : v < 4096 := scaled_nat hv
  have hl : low 12 v = v := by
    rw [low_nat (by omega) (by omega)]
    rfl
  have hW : Word (W_LDR_UIMM size sg t.num v b.num) (size * 512 + 0x1c8 + 0 * 32 + (1 + 2 * sg) * 2 + v / 2048) (v / 64 % 32) (v % 64) b.num t.num := by
    unfold W_LDR_UIMM
    rw [hl]
    exact word12 (ldc size sg l1 l2).2.1 (by omega) (by omega) (by omega) hv2 (num_lt _) (num_lt _)
  refine good hW ld_match ?_ ((dec_uoff l1 (by decide) (by omega) hv2).trans hi) he
  have r1 : ((v * 2 ^ size : Nat) : Int) ≤ 4095 ∧ -4096 ≤ ((v * 2 ^ size : Nat) : Int) := by omega
  have r2 : 0 ≤ ((v * 2 ^ size : Nat) : Int) := by omega
  rcases h with ⟨rfl, rfl, rfl, rfl⟩ | ⟨rfl, rfl, rfl⟩ | ⟨rfl, rfl, rfl, rfl⟩ | ⟨rfl, rfl, rfl, rfl⟩ | ⟨rfl, rfl, rfl, rfl⟩ | ⟨rfl, rfl, rfl, rfl⟩
  all_goals simp only [instOf, Ld.raw, Addr.op, handle, asmLdrstr, ldNum, stNum, r1, r2, and_self, if_true, scaled, bit]
  · simp
  · cases q <;> simp
  · simp
  · simp
  · simp
  · simp

theorem ldr_9_good {k : Ld} {q : Bool} {size sg : Nat} (h : LdTab k q size sg) {t b : R} {o : Int} {p : Nat} {a : Addr} (ht : t ≠ .sp)
    (hab : (p = 0 ∧ a = .off b o ∧ o < 0) ∨ (p = 1 ∧ a = .post b o) ∨ (p = 3 ∧ a = .pre b o)) (hb : b ≠ .zr) (h1 : -256 ≤ o) (h2 : o < 256) : Good M (.ldr k q t a) := by
  have hok : AmOk size (amOf p o) a := by
    rcases hab with ⟨rfl, rfl, _⟩ | ⟨rfl, rfl⟩ | ⟨rfl, rfl⟩
    · exact am_off hb
    · exact am_post hb
    · exact am_pre hb
  have hbase : a.base = b := by
    rcases hab with ⟨rfl, rfl, _⟩ | ⟨rfl, rfl⟩ | ⟨rfl, rfl⟩ <;> rfl
  obtain ⟨i, hi, he⟩ := ld_exec (M := M) h ht hok
  rw [hbase] at hi
  obtain ⟨l1, l2, _⟩ := h.lt
  have hl : sgn 9 (low 9 o) = o := sgn_low (by decide) h1 h2
  have hp3 : p = 0 ∨ p = 1 ∨ p = 3 := by omega
  have hW : Word (0x38400000 ||| (size <<< 30) ||| (sg <<< 23) ||| (low 9 o <<< 12) ||| (p <<< 10) ||| (b.num <<< 5) ||| t.num) (size * 512 + 0x1c0 + 0 * 32 + (1 + 2 * sg) * 2) (low 9 o / 16) (low 9 o % 16 * 4 + p) b.num t.num :=
    word9 (ldc size sg l1 l2).1 (by omega) (by omega) (low_lt _ _) (by omega) (num_lt _) (num_lt _)
  refine good hW ld_match ?_ ((dec_9 l1 (by decide) (by omega) hp3).trans (by rw [hl]; exact hi)) he
  have r1 : o ≤ 4095 ∧ -4096 ≤ o := by omega
  rcases hab with ⟨rfl, rfl, hneg⟩ | ⟨rfl, rfl⟩ | ⟨rfl, rfl⟩
  · have r2 : ¬ 0 ≤ o := by omega
    rcases h with ⟨rfl, rfl, rfl, rfl⟩ | ⟨rfl, rfl, rfl⟩ | ⟨rfl, rfl, rfl, rfl⟩ | ⟨rfl, rfl, rfl, rfl⟩ | ⟨rfl, rfl, rfl, rfl⟩ | ⟨rfl, rfl, rfl, rfl⟩
    all_goals simp only [instOf, Ld.raw, Addr.op, handle, asmLdrstr, ldNum, stNum, r1, r2, and_self, if_true, if_false, bit, W_LDUR]
    · simp
    · cases q <;> simp
    · simp
    · simp
    · simp
    · simp
  · rcases h with ⟨rfl, rfl, rfl, rfl⟩ | ⟨rfl, rfl, rfl⟩ | ⟨rfl, rfl, rfl, rfl⟩ | ⟨rfl, rfl, rfl, rfl⟩ | ⟨rfl, rfl, rfl, rfl⟩ | ⟨rfl, rfl, rfl, rfl⟩
    all_goals simp only [instOf, Ld.raw, Addr.op, handle, asmLdrstr, ldNum, stNum, r1, and_self, if_true, bit, W_LDR, prePost]
    · simp
    · cases q <;> simp
    · simp
    · simp
    · simp
    · simp
  · rcases h with ⟨rfl, rfl, rfl, rfl⟩ | ⟨rfl, rfl, rfl⟩ | ⟨rfl, rfl, rfl, rfl⟩ | ⟨rfl, rfl, rfl, rfl⟩ | ⟨rfl, rfl, rfl, rfl⟩ | ⟨rfl, rfl, rfl, rfl⟩
    all_goals simp only [instOf, Ld.raw, Addr.op, handle, asmLdrstr, ldNum, stNum, r1, and_self, if_true, bit, W_LDR, prePost]
    · simp
    · cases q <;> simp
    · simp
    · simp
    · simp
    · simp

theorem ldr_sym_good {k : Ld} {q : Bool} {size sg : Nat} (h : LdTab k q size sg) {t b : R} (ht : t ≠ .sp) (hb : b ≠ .zr) :
    Good M (.ldr k q t (.sym b)) := by
  obtain ⟨i, hi, he⟩ := ld_exec (M := M) h ht (am_sym (size := size) hb)
  obtain ⟨l1, l2, _⟩ := h.lt
  have hW : Word (W_LDR_UIMM size sg t.num 0 b.num) (size * 512 + 0x1c8 + 0 * 32 + (1 + 2 * sg) * 2 + 0 / 2048) (0 / 64 % 32) (0 % 64) b.num t.num :=
    word12 (ldc size sg l1 l2).2.1 (by omega) (by omega) (by omega) (by decide) (num_lt _) (num_lt _)
  refine good hW ld_match ?_ ((dec_uoff l1 (by decide) (by omega) (by decide)).trans hi) he
  rcases h with ⟨rfl, rfl, rfl, rfl⟩ | ⟨rfl, rfl, rfl⟩ | ⟨rfl, rfl, rfl, rfl⟩ | ⟨rfl, rfl, rfl, rfl⟩ | ⟨rfl, rfl, rfl, rfl⟩ | ⟨rfl, rfl, rfl, rfl⟩
  all_goals simp only [instOf, Ld.raw, Addr.op, handle, asmLdrstr, ldNum, stNum, if_true, bit]
  · simp
  · cases q <;> simp
  · simp
  · simp
  · simp
  · simp

theorem opt3 (e : Nat) : optOf e = 2 ∨ optOf e = 3 ∨ optOf e = 6 := by
  match e with
  | 0 => simp [optOf]
  | 1 => simp [optOf]
  | 2 => simp [optOf]
  | e + 3 => simp [optOf]

theorem wordR {c t m o n d : Nat} (hc : c = t <<< 21 ||| 2 <<< 10) (t0 : t ≠ 0) (t1 : t < 2048) (ho : o = 2 ∨ o = 3 ∨ o = 6) (m1 : m < 32)
    (n1 : n < 32) (d1 : d < 32) : Word (c ||| m <<< 16 ||| o <<< 13 ||| 0 <<< 12 ||| n <<< 5 ||| d) t m (o * 8 + 2) n d :=
  wordE hc (by rcases ho with rfl | rfl | rfl <;> rfl) t0 t1 m1 (by omega) n1 d1

theorem ldr_idx_good {k : Ld} {q : Bool} {size sg : Nat} (h : LdTab k q size sg) {t b m : R} {e : Nat} (ht : t ≠ .sp) (hb : b ≠ .zr)
    (hm : m ≠ .sp) : Good M (.ldr k q t (.idx b m e)) := by
  obtain ⟨i, hi, he⟩ := ld_exec (M := M) h ht (am_idx (size := size) (e := e) hb hm)
  obtain ⟨l1, l2, _⟩ := h.lt
  have hW : Word (W_LDR_R size t.num b.num m.num sg 0 (optOf e)) (size * 512 + 0x1c1 + 0 * 32 + (1 + 2 * sg) * 2) m.num (optOf e * 8 + 2) b.num t.num :=
    wordR (ldc size sg l1 l2).2.2 (by omega) (by omega) (opt3 e) (num_lt _) (num_lt _) (num_lt _)
  refine good hW ld_match ?_ ((dec_reg l1 (by decide) (by omega) (opt3 e)).trans hi) he
  rcases h with ⟨rfl, rfl, rfl, rfl⟩ | ⟨rfl, rfl, rfl⟩ | ⟨rfl, rfl, rfl, rfl⟩ | ⟨rfl, rfl, rfl, rfl⟩ | ⟨rfl, rfl, rfl, rfl⟩ | ⟨rfl, rfl, rfl, rfl⟩
  all_goals simp only [instOf, Ld.raw, Addr.op, handle, asmLdrstr, ldNum, stNum, if_true, bit]
  · simp
  · cases q <;> simp
  · simp
  · simp
  · simp
  · simp

end Nature.Arm64
