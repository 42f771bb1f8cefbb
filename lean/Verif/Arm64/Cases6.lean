import Verif.Arm64.Cases5
/-! Branches, system instructions, floating point arithmetic. -/
namespace Nature.Arm64
variable {M : Fpu}

/-! ### Branches -/

theorem tdiv4 {o : Int} (h : o % 4 = 0) : 4 * o.tdiv 4 = o := Int.mul_tdiv_cancel' (Int.dvd_of_emod_eq_zero h)

theorem tgt (l : Bool) (o : Int) : target (dest l o) = some (o.tdiv 4) := by cases l <;> rfl

theorem near26 {o : Int} (h : near 26 o) : 4 * sgn 26 (low 26 (o.tdiv 4)) = o := by
  obtain ⟨h1, h2, h3⟩ := h
  have := tdiv4 h1
  rw [sgn_low (by decide) (by omega) (by omega), this]

theorem near19 {o : Int} (h : near 19 o) : 4 * sgn 19 (low 19 (o.tdiv 4)) = o := by
  obtain ⟨h1, h2, h3⟩ := h
  have := tdiv4 h1
  rw [sgn_low (by decide) (by omega) (by omega), this]

theorem branch_jump (s : St) (t : Bool) (o : Int) : branch s t o = jump s t o := by
  cases t <;> rfl

theorem dec_b {t v : Nat} (h : v < 2 ^ 26) (ht : t = 160 ∨ t = 1184) :
    decodeF (t + v / 2 ^ 21) (v / 2 ^ 16 % 32) (v / 2 ^ 10 % 64) (v / 32 % 32) (v % 32) =
      some (if t = 160 then .b (4 * sgn 26 v) else .bl (4 * sgn 26 v)) := by
  have e : (t + v / 2 ^ 21) % 32 * 2 ^ 21 + v / 2 ^ 16 % 32 * 2 ^ 16 + v / 2 ^ 10 % 64 * 2 ^ 10 + v / 32 % 32 * 2 ^ 5 + v % 32 = v := by omega
  have d5 : (t + v / 2 ^ 21) / 32 = if t = 160 then 5 else 37 := by
    rcases ht with rfl | rfl
    · rw [if_pos rfl]
      omega
    · rw [if_neg (by decide)]
      omega
  unfold decodeF
  simp only [e, d5]
  rcases ht with rfl | rfl <;> rfl

theorem b_good {l : Bool} {o : Int} (h : near 26 o) : Good M (.b l o) := by
  refine good (op := .same) (w := W_B (o.tdiv 4)) (word26 (t := 160) rfl (by decide) (by decide) (by decide) (low_lt _ _)) (by cases l <;> mt) ?_
    (dec_b (low_lt _ _) (.inl rfl)) ?_
  · simp only [instOf, handle, asmB, tgt]
  · intro s
    simp only [if_true, exec, effect, near26 h, branch_jump]

theorem bl_good {l : Bool} {o : Int} (h : near 26 o) : Good M (.bl l o) := by
  refine good (op := .same) (w := W_BL (o.tdiv 4)) (word26 (t := 1184) rfl (by decide) (by decide) (by decide) (low_lt _ _)) (by cases l <;> mt) ?_
    (dec_b (low_lt _ _) (.inr rfl)) ?_
  · simp only [instOf, handle, asmB, tgt]
  · intro s
    rw [if_neg (by decide)]
    simp only [exec, effect, near26 h, branch_jump]
    simp only [R.put, R.set, St.setx, BitVec.setWidth_eq]
    rfl

theorem imm19 {t v : Nat} (h : v < 2 ^ 19) (ht : t % 8 = 0) : (t + v / 65536) % 8 * 2 ^ 16 + v / 2048 % 32 * 2 ^ 11 + v / 32 % 64 * 2 ^ 5 + v % 32 = v := by omega

theorem dec_bcc {v c : Nat} (h : v < 2 ^ 19) (hc : c < 16) :
    decodeF (0x2a0 + v / 65536) (v / 2048 % 32) (v / 32 % 64) (v % 32) c = some (.bcond c (4 * sgn 19 v)) := by
  have e := imm19 (t := 0x2a0) h (by decide)
  have d1 : (0x2a0 + v / 65536) / 32 = 21 := by omega
  have d2 : (0x2a0 + v / 65536) / 8 = 0x54 := by omega
  unfold decodeF
  simp only [e, d1, d2, hc, if_true]
  rfl

theorem cond_of (c : Cond) : condOf c.num = c := by cases c <;> rfl

theorem bcc_good {c : Cond} {l : Bool} {o : Int} (h : near 19 o) : Good M (.bcc c l o) := by
  have hc : c.num < 16 := by cases c <;> decide
  refine good (op := .same) (w := W_BCC c.num (o.tdiv 4)) (word19 (t := 0x2a0) rfl (by decide) (by decide) (by decide) (low_lt _ _) (by omega)) (by cases l <;> mt) ?_
    (dec_bcc (low_lt _ _) hc) ?_
  · simp only [instOf, handle, asmB, tgt]
  · intro s
    simp only [exec, effect, near19 h, branch_jump, cond_of]

theorem dec_cb {v t d : Nat} {nz q : Bool} (h : v < 2 ^ 19) (ht : t = 0x1a0 + (if nz then 8 else 0) + (if q then 1024 else 0)) :
    decodeF (t + v / 65536) (v / 2048 % 32) (v / 32 % 64) (v % 32) d = some (.cb nz q d (4 * sgn 19 v)) := by
  have e := imm19 (t := t) h (by subst ht; cases nz <;> cases q <;> decide)
  have d0 : (t + v / 65536) / 1024 = bit q := by subst ht; cases nz <;> cases q <;> simp [bit] <;> omega
  have d1 : (t + v / 65536) / 32 = t / 32 := by subst ht; cases nz <;> cases q <;> simp <;> omega
  have d2 : (t + v / 65536) / 8 = t / 8 := by subst ht; cases nz <;> cases q <;> simp <;> omega
  unfold decodeF
  simp only [e, d0, d1, d2]
  subst ht
  cases nz <;> cases q <;> rfl

theorem cbz_good {q l : Bool} {t : R} {o : Int} (ht : t ≠ .sp) (h : near 19 o) : Good M (.cbz q t l o) := by
  have e : ∀ s, exec M (.cb false q t.num (4 * sgn 19 (low 19 (o.tdiv 4)))) s = effect M (.cbz q t l o) s := by
    intro s
    simp only [exec, effect, near19 h, branch_jump, zr_num s q ht]
    simp
  have hm : matchOp (instOf (.cbz q t l o)) = some .same := by cases l <;> cases q <;> mt
  have hh : handle (instOf (.cbz q t l o)).raw .same (instOf (.cbz q t l o)).ops = some (W_CBZ (bit q) t.num (o.tdiv 4)) := by
    simp only [instOf, handle, asmCb, tgt]
  cases q
  · exact good (word19 (t := 0x1a0) rfl (by decide) (by decide) (by decide) (low_lt _ _) (num_lt _)) hm hh (dec_cb (nz := false) (q := false) (low_lt _ _) rfl) e
  · exact good (word19 (t := 0x5a0) rfl (by decide) (by decide) (by decide) (low_lt _ _) (num_lt _)) hm hh (dec_cb (nz := false) (q := true) (low_lt _ _) rfl) e

theorem cbnz_good {q l : Bool} {t : R} {o : Int} (ht : t ≠ .sp) (h : near 19 o) : Good M (.cbnz q t l o) := by
  have e : ∀ s, exec M (.cb true q t.num (4 * sgn 19 (low 19 (o.tdiv 4)))) s = effect M (.cbnz q t l o) s := by
    intro s
    simp only [exec, effect, near19 h, branch_jump, zr_num s q ht]
    simp
  have hm : matchOp (instOf (.cbnz q t l o)) = some .same := by cases l <;> cases q <;> mt
  have hh : handle (instOf (.cbnz q t l o)).raw .same (instOf (.cbnz q t l o)).ops = some (W_CBNZ (bit q) t.num (o.tdiv 4)) := by
    simp only [instOf, handle, asmCb, tgt]
  cases q
  · exact good (word19 (t := 0x1a8) rfl (by decide) (by decide) (by decide) (low_lt _ _) (num_lt _)) hm hh (dec_cb (nz := true) (q := false) (low_lt _ _) rfl) e
  · exact good (word19 (t := 0x5a8) rfl (by decide) (by decide) (by decide) (low_lt _ _) (num_lt _)) hm hh (dec_cb (nz := true) (q := true) (low_lt _ _) rfl) e

/-- One register from bit 5 on. -/
theorem wordN {c t rm rn : Nat} (hc : c = t <<< 21 ||| rm <<< 16) (t0 : t ≠ 0) (t1 : t < 2048) (m1 : rm < 32) (n1 : rn < 32) :
    Word (c ||| rn <<< 5) t rm 0 rn 0 := by
  have h := word2 (c := c) (x := 0) (rd := 0) (rn := rn) (by rw [hc]; simp) t0 t1 m1 (by decide) n1 (by decide)
  rw [Nat.or_zero] at h
  exact h

theorem br_good {a : R} (ha : a ≠ .sp) : Good M (.br a) := by
  refine good (op := .same) (wordN (t := 0x6b0) (rm := 31) rfl (by decide) (by decide) (by decide) (num_lt a)) (by mt) (by hn asmBr W_BR W_BLR) rfl ?_
  intro s
  simp only [exec, effect, xz_num s ha]

theorem blr_good {a : R} (ha : a ≠ .sp) : Good M (.blr a) := by
  refine good (op := .same) (wordN (t := 0x6b1) (rm := 31) rfl (by decide) (by decide) (by decide) (num_lt a)) (by mt) (by hn asmBr W_BR W_BLR) rfl ?_
  intro s
  simp only [exec, effect, xz_num s ha]
  simp only [R.put, R.set, St.setx, BitVec.setWidth_eq]
  rfl

theorem ret_good : Good M .ret :=
  ⟨0xd65f03c0, .ret 30, by decide, by decide, by decide, fun s => rfl⟩

theorem nop_good : Good M .nop :=
  ⟨0xd503201f, .nop, by decide, by decide, by decide, fun s => rfl⟩

/-! ### System -/

theorem svc_good {v : Int} (h0 : 0 ≤ v) (h1 : v < 65536) : Good M (.svc v) := by
  have hs : sh v 5 = v.toNat <<< 5 := sh_nat (n := 16) h0 h1 (by decide)
  have hv : v.toNat < 65536 := by omega
  have hW : Word (W_SVC v) 0x6a0 (v.toNat / 2048) (v.toNat / 32 % 64) (v.toNat % 32) 1 := by
    unfold W_SVC
    rw [hs]
    have h := word16 (c := 0x6a0 <<< 21) (t := 0x6a0) (v := v.toNat) (rd := 1) rfl (by decide) (by decide) hv (by decide)
    have e : ∀ a b c : Nat, a ||| b ||| c = a ||| c ||| b := by
      intros
      ac_rfl
    rw [e] at h
    exact h
  refine good (op := .same) hW (by mt) rfl (i := .svc (v.toNat / 2048 * 2 ^ 11 + v.toNat / 32 % 64 * 2 ^ 5 + v.toNat % 32)) rfl ?_
  intro s
  have := imm16 hv
  simp only [exec, effect, this]

theorem mrs_good {d : R} {v : Int} (hd : d ≠ .sp) (h0 : 0 ≤ v) (h1 : v < 2 ^ 15) : Good M (.mrs d v) := by
  have hs : sh v 5 = v.toNat <<< 5 := sh_nat (n := 15) h0 h1 (by decide)
  have hv : v.toNat < 2 ^ 15 := by omega
  have hW : Word (W_MRS d.num v) 0x6a9 ((32768 + v.toNat) / 2048) ((32768 + v.toNat) / 32 % 64) ((32768 + v.toNat) % 32) d.num := by
    unfold W_MRS
    rw [hs]
    have h := word16 (c := 0x6a9 <<< 21) (t := 0x6a9) (v := 32768 + v.toNat) (rd := d.num) rfl (by decide) (by decide) (by omega) (num_lt _)
    have e : 32768 + v.toNat = 32768 ||| v.toNat := (or_add (a := 32768) (i := 15) (by decide) hv).symm
    have e2 : 0x6a9 <<< 21 ||| (32768 + v.toNat) <<< 5 = 0xd5300000 ||| v.toNat <<< 5 := by
      rw [e, Nat.shiftLeft_or_distrib, ← Nat.or_assoc]
      rfl
    rw [e2] at h
    exact h
  have h16 : (32768 + v.toNat) / 2048 * 2 ^ 11 + (32768 + v.toNat) / 32 % 64 * 2 ^ 5 + (32768 + v.toNat) % 32 = 32768 + v.toNat := by omega
  have hge : 16 ≤ (32768 + v.toNat) / 2048 := by omega
  have hmod : (32768 + v.toNat) % 2 ^ 15 = v.toNat := by omega
  have hdec : decodeF 0x6a9 ((32768 + v.toNat) / 2048) ((32768 + v.toNat) / 32 % 64) ((32768 + v.toNat) % 32) d.num = some (.mrs v.toNat d.num) := by
    unfold decodeF
    simp only [h16, hmod, hge, if_true]
    rfl
  refine good (op := .same) hW (by mt) rfl hdec ?_
  intro s
  simp only [exec, effect, putz_num s _ hd]

theorem adrp_good {d : R} (hd : d ≠ .sp) : Good M (.adrp d) := by
  have hW : Word (W_ADRP d.num) 0x480 0 0 0 d.num := by
    have h := word16 (c := 0x480 <<< 21) (t := 0x480) (v := 0) (rd := d.num) rfl (by decide) (by decide) (by decide) (num_lt _)
    have e : 0x480 <<< 21 ||| 0 <<< 5 = 0x90000000 := by decide
    rw [e] at h
    exact h
  refine good (op := .same) hW (by mt) rfl (i := .adrp 0 d.num) rfl ?_
  intro s
  simp only [exec, effect, putz_num s _ hd]
  simp

theorem cset_good {q : Bool} {d : R} {c : Cond} (hd : d ≠ .sp) (h1 : c ≠ .al) (h2 : c ≠ .nv) : Good M (.cset q d c) := by
  have e : ∀ s, exec M (.csinc q 31 (c.num ^^^ 1) 31 d.num) s = effect M (.cset q d c) s := by
    intro s
    have hc : (condOf (c.num ^^^ 1)).holds s = !c.holds s := by
      cases c <;> first | exact absurd rfl h1 | exact absurd rfl h2 | simp [Cond.num, condOf, Cond.holds, bne]
    simp only [exec, effect, hc, zr_31, putz_num s _ hd]
    cases c.holds s <;> simp
  have hW : ∀ {t : Nat}, (0x1a800400 ||| (bit q <<< 31) ||| 31 <<< 16 = t <<< 21 ||| 31 <<< 16 ||| 1 <<< 10) → t ≠ 0 → t < 2048 →
      Word (P_CSET (bit q) d.num c.num) t 31 ((c.num ^^^ 1) * 4 + 1) 31 d.num := by
    intro t hc t0 t1
    have hlt : c.num ^^^ 1 < 16 := by cases c <;> decide
    refine ⟨?_, t0, t1, by decide, by omega, by decide, num_lt _⟩
    unfold P_CSET W_CSINC pack
    rw [hc]
    have hx : ((c.num ^^^ 1) * 4 + 1) <<< 10 = 1 <<< 10 ||| (c.num ^^^ 1) <<< 12 := by cases c <;> rfl
    rw [hx]
    exact congrArg (fun z => z ||| 31 <<< 5 ||| d.num) (Nat.or_assoc _ _ _)
  have hm : matchOp (instOf (.cset q d c)) = some .same := by cases q <;> mt
  have hlt : c.num ^^^ 1 < 16 := by cases c <;> decide
  have hdec : ∀ t, t = 0xd4 + (if q then 1024 else 0) → decodeF t 31 ((c.num ^^^ 1) * 4 + 1) 31 d.num = some (.csinc q 31 (c.num ^^^ 1) 31 d.num) := by
    intro t ht
    subst ht
    have d1 : ((c.num ^^^ 1) * 4 + 1) % 4 = 1 := by omega
    have d2 : ((c.num ^^^ 1) * 4 + 1) / 4 = c.num ^^^ 1 := by omega
    unfold decodeF
    simp only [d1, d2]
    cases q <;> rfl
  cases q
  · exact good (hW (t := 0xd4) rfl (by decide) (by decide)) hm rfl (hdec _ rfl) e
  · exact good (hW (t := 0x4d4) rfl (by decide) (by decide)) hm rfl (hdec _ rfl) e

/-! ### Floating point -/

macro "f3w" t:term ";" x:term : term => `(word3 (t := $t) (x := $x) rfl (by decide) (by decide) (by decide) (Fin.isLt _) (Fin.isLt _) (Fin.isLt _))
macro "f2w" t:term ";" m:term ";" x:term : term =>
  `(word2 (t := $t) (rm := $m) (x := $x) rfl (by decide) (by decide) (by decide) (by decide) (Fin.isLt _) (Fin.isLt _))

theorem farith_good {op : F2} {dbl : Bool} {d a b : Fin 32} : Good M (.farith op dbl d a b) := by
  cases op <;> cases dbl
  · exact good (op := .same) (f3w 0xf1; 10) (by mt) rfl (i := .f2 .add false b a d) rfl fun s => rfl
  · exact good (op := .same) (f3w 0xf3; 10) (by mt) rfl (i := .f2 .add true b a d) rfl fun s => rfl
  · exact good (op := .same) (f3w 0xf1; 14) (by mt) rfl (i := .f2 .sub false b a d) rfl fun s => rfl
  · exact good (op := .same) (f3w 0xf3; 14) (by mt) rfl (i := .f2 .sub true b a d) rfl fun s => rfl
  · exact good (op := .same) (f3w 0xf1; 2) (by mt) rfl (i := .f2 .mul false b a d) rfl fun s => rfl
  · exact good (op := .same) (f3w 0xf3; 2) (by mt) rfl (i := .f2 .mul true b a d) rfl fun s => rfl
  · exact good (op := .same) (f3w 0xf1; 6) (by mt) rfl (i := .f2 .div false b a d) rfl fun s => rfl
  · exact good (op := .same) (f3w 0xf3; 6) (by mt) rfl (i := .f2 .div true b a d) rfl fun s => rfl

theorem fmov_good {dbl : Bool} {d a : Fin 32} : Good M (.fmov dbl d a) := by
  cases dbl
  · exact good (op := .f) (f2w 0xf1; 0; 16) (by mt) rfl (i := .fmov false a d) rfl fun s => rfl
  · exact good (op := .f) (f2w 0xf3; 0; 16) (by mt) rfl (i := .fmov true a d) rfl fun s => rfl

theorem fneg_good {dbl : Bool} {d a : Fin 32} : Good M (.fneg dbl d a) := by
  cases dbl
  · exact good (op := .same) (f2w 0xf1; 1; 16) (by mt) rfl (i := .fneg false a d) rfl fun s => rfl
  · exact good (op := .same) (f2w 0xf3; 1; 16) (by mt) rfl (i := .fneg true a d) rfl fun s => rfl

theorem fsqrt_good {dbl : Bool} {d a : Fin 32} : Good M (.fsqrt dbl d a) := by
  cases dbl
  · exact good (op := .same) (f2w 0xf1; 1; 48) (by mt) rfl (i := .fsqrt false a d) rfl fun s => rfl
  · exact good (op := .same) (f2w 0xf3; 1; 48) (by mt) rfl (i := .fsqrt true a d) rfl fun s => rfl

theorem fcvt_good {to : Bool} {d a : Fin 32} : Good M (.fcvt to d a) := by
  cases to
  · exact good (op := .same) (f2w 0xf3; 2; 16) (by mt) rfl (i := .fcvt true false a d) rfl fun s => rfl
  · exact good (op := .same) (f2w 0xf1; 2; 48) (by mt) rfl (i := .fcvt false true a d) rfl fun s => rfl

theorem fcmp_good {dbl : Bool} {a b : Fin 32} : Good M (.fcmp dbl a b) := by
  have hW : ∀ {c t : Nat}, c = t <<< 21 ||| 8 <<< 10 → t ≠ 0 → t < 2048 → Word (c ||| (b : Nat) <<< 16 ||| (a : Nat) <<< 5) t b 8 a 0 := by
    intro c t hc t0 t1
    have := word3 (rm := b) (rn := a) (rd := 0) hc t0 t1 (by decide) b.isLt a.isLt (by decide)
    simpa using this
  cases dbl
  · exact good (op := .same) (hW (t := 0xf1) rfl (by decide) (by decide)) (by mt) rfl (i := .fcmp false b a) rfl fun s => rfl
  · exact good (op := .same) (hW (t := 0xf3) rfl (by decide) (by decide)) (by mt) rfl (i := .fcmp true b a) rfl fun s => rfl

theorem fmovx_good {q : Bool} {d : Fin 32} {a : R} (ha : a ≠ .sp) : Good M (.fmovx q d a) := by
  have e : ∀ s, exec M (.fmovx q a.num d) s = effect M (.fmovx q d a) s := by
    intro s
    simp only [exec, effect, zr_num s q ha]
  cases q
  · exact good (op := .f) (word2 (t := 0xf1) (rm := 7) (x := 0) rfl (by decide) (by decide) (by decide) (by decide) (num_lt _) d.isLt) (by mt) rfl rfl e
  · exact good (op := .f) (word2 (t := 0x4f3) (rm := 7) (x := 0) rfl (by decide) (by decide) (by decide) (by decide) (num_lt _) d.isLt) (by mt) rfl rfl e

theorem cvtf_good {signed q dbl : Bool} {d : Fin 32} {a : R} (ha : a ≠ .sp) : Good M (.cvtf signed q dbl d a) := by
  have e : ∀ s, exec M (.ofInt signed q dbl a.num d) s = effect M (.cvtf signed q dbl d a) s := by
    intro s
    simp only [exec, effect, zr_num s q ha]
  have hm : matchOp (instOf (.cvtf signed q dbl d a)) = some .same := by cases signed <;> cases q <;> cases dbl <;> mt
  cases signed <;> cases q <;> cases dbl
  · exact good (word2 (t := 0xf1) (rm := 3) (x := 0) rfl (by decide) (by decide) (by decide) (by decide) (num_lt _) d.isLt) hm rfl rfl e
  · exact good (word2 (t := 0xf3) (rm := 3) (x := 0) rfl (by decide) (by decide) (by decide) (by decide) (num_lt _) d.isLt) hm rfl rfl e
  · exact good (word2 (t := 0x4f1) (rm := 3) (x := 0) rfl (by decide) (by decide) (by decide) (by decide) (num_lt _) d.isLt) hm rfl rfl e
  · exact good (word2 (t := 0x4f3) (rm := 3) (x := 0) rfl (by decide) (by decide) (by decide) (by decide) (num_lt _) d.isLt) hm rfl rfl e
  · exact good (word2 (t := 0xf1) (rm := 2) (x := 0) rfl (by decide) (by decide) (by decide) (by decide) (num_lt _) d.isLt) hm rfl rfl e
  · exact good (word2 (t := 0xf3) (rm := 2) (x := 0) rfl (by decide) (by decide) (by decide) (by decide) (num_lt _) d.isLt) hm rfl rfl e
  · exact good (word2 (t := 0x4f1) (rm := 2) (x := 0) rfl (by decide) (by decide) (by decide) (by decide) (num_lt _) d.isLt) hm rfl rfl e
  · exact good (word2 (t := 0x4f3) (rm := 2) (x := 0) rfl (by decide) (by decide) (by decide) (by decide) (num_lt _) d.isLt) hm rfl rfl e

theorem cvtz_good {signed q dbl : Bool} {d : R} {a : Fin 32} (hd : d ≠ .sp) : Good M (.cvtz signed q dbl d a) := by
  have e : ∀ s, exec M (.toInt signed q dbl a d.num) s = effect M (.cvtz signed q dbl d a) s := by
    intro s
    simp only [exec, effect, putz_num s _ hd]
  have hm : matchOp (instOf (.cvtz signed q dbl d a)) = some .same := by cases signed <;> cases q <;> cases dbl <;> mt
  cases signed <;> cases q <;> cases dbl
  · exact good (word2 (t := 0xf1) (rm := 25) (x := 0) rfl (by decide) (by decide) (by decide) (by decide) a.isLt (num_lt _)) hm rfl rfl e
  · exact good (word2 (t := 0xf3) (rm := 25) (x := 0) rfl (by decide) (by decide) (by decide) (by decide) a.isLt (num_lt _)) hm rfl rfl e
  · exact good (word2 (t := 0x4f1) (rm := 25) (x := 0) rfl (by decide) (by decide) (by decide) (by decide) a.isLt (num_lt _)) hm rfl rfl e
  · exact good (word2 (t := 0x4f3) (rm := 25) (x := 0) rfl (by decide) (by decide) (by decide) (by decide) a.isLt (num_lt _)) hm rfl rfl e
  · exact good (word2 (t := 0xf1) (rm := 24) (x := 0) rfl (by decide) (by decide) (by decide) (by decide) a.isLt (num_lt _)) hm rfl rfl e
  · exact good (word2 (t := 0xf3) (rm := 24) (x := 0) rfl (by decide) (by decide) (by decide) (by decide) a.isLt (num_lt _)) hm rfl rfl e
  · exact good (word2 (t := 0x4f1) (rm := 24) (x := 0) rfl (by decide) (by decide) (by decide) (by decide) a.isLt (num_lt _)) hm rfl rfl e
  · exact good (word2 (t := 0x4f3) (rm := 24) (x := 0) rfl (by decide) (by decide) (by decide) (by decide) a.isLt (num_lt _)) hm rfl rfl e

theorem fmovi_good {dbl : Bool} {d : Fin 32} {v : Int} (h0 : 0 ≤ v) (h1 : v < 256) : Good M (.fmovi dbl d v) := by
  have hl : low 8 v = v.toNat := low_nat h0 h1
  have hv : v.toNat < 256 := by omega
  have hdec : ∀ t, t = 0xf1 + (if dbl then 2 else 0) → decodeF t (low 8 v / 8) (low 8 v % 8 * 8 + 4) 0 d = some (.fmovi dbl v.toNat d) := by
    intro t ht
    subst ht
    rw [hl]
    have d1 : ¬ (v.toNat % 8 * 8 + 4) % 32 = 16 := by omega
    have d2 : ¬ v.toNat % 8 * 8 + 4 = 8 := by omega
    have d3 : (v.toNat % 8 * 8 + 4) % 8 = 4 := by omega
    have d4 : v.toNat / 8 * 8 + (v.toNat % 8 * 8 + 4) / 8 = v.toNat := by omega
    have d5 : ¬ v.toNat % 8 * 8 + 4 = 0 := by omega
    cases dbl <;> simp [decodeF, fp, isOne, d1, d2, d3, d4]
  have e : ∀ s, exec M (.fmovi dbl v.toNat d) s = effect M (.fmovi dbl d v) s := fun s => rfl
  cases dbl
  · exact good (op := .fi) (word8 (t := 0xf1) rfl (by decide) (by decide) (low_lt 8 v) d.isLt) (by mt) rfl (hdec _ rfl) e
  · exact good (op := .fi) (word8 (t := 0xf3) rfl (by decide) (by decide) (low_lt 8 v) d.isLt) (by mt) rfl (hdec _ rfl) e

theorem dec_fma {t m a n d : Nat} {x : Nat} {o1 dbl hi : Bool} (ht : t = 0xf8 + (if o1 then 1 else 0) + (if dbl then 2 else 0)) (ha : a < 32) (hx : x = (if hi then 32 else 0) + a) :
    decodeF t m x n d = some (.f3 (hi != o1) o1 dbl m a n d) := by
  have d1 : x / 32 = if hi then 1 else 0 := by subst hx; cases hi <;> simp <;> omega
  have d2 : x % 32 = a := by subst hx; cases hi <;> simp <;> omega
  subst ht
  unfold decodeF
  simp only [d1, d2]
  cases o1 <;> cases dbl <;> cases hi <;> rfl

theorem fma_good {op : F3} {dbl : Bool} {d a b c : Fin 32} : Good M (.fma op dbl d a b c) := by
  have hc6 : (c : Nat) < 64 := Nat.lt_trans c.isLt (by decide)
  cases op <;> cases dbl
  · exact good (op := .same) (word4 (t := 0xf8) rfl (by decide) (by decide) b.isLt hc6 a.isLt d.isLt) (by mt) rfl
      (dec_fma (o1 := false) (dbl := false) (hi := false) rfl c.isLt (by simp)) fun s => rfl
  · exact good (op := .same) (word4 (t := 0xfa) rfl (by decide) (by decide) b.isLt hc6 a.isLt d.isLt) (by mt) rfl
      (dec_fma (o1 := false) (dbl := true) (hi := false) rfl c.isLt (by simp)) fun s => rfl
  · exact good (op := .same) (word4s (t := 0xf8) rfl (by decide) (by decide) b.isLt c.isLt a.isLt d.isLt) (by mt) rfl
      (dec_fma (o1 := false) (dbl := false) (hi := true) rfl c.isLt (by simp)) fun s => rfl
  · exact good (op := .same) (word4s (t := 0xfa) rfl (by decide) (by decide) b.isLt c.isLt a.isLt d.isLt) (by mt) rfl
      (dec_fma (o1 := false) (dbl := true) (hi := true) rfl c.isLt (by simp)) fun s => rfl
  · exact good (op := .same) (word4s (t := 0xf9) rfl (by decide) (by decide) b.isLt c.isLt a.isLt d.isLt) (by mt) rfl
      (dec_fma (o1 := true) (dbl := false) (hi := true) rfl c.isLt (by simp)) fun s => rfl
  · exact good (op := .same) (word4s (t := 0xfb) rfl (by decide) (by decide) b.isLt c.isLt a.isLt d.isLt) (by mt) rfl
      (dec_fma (o1 := true) (dbl := true) (hi := true) rfl c.isLt (by simp)) fun s => rfl

end Nature.Arm64
