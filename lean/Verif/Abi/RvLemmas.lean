import Verif.Abi.Rv
import Verif.Abi.ArmCall
/-
riscv64: where each argument goes.
-/
namespace Nature.Abi
open Nature.TypeLayout

mutual
/-- The bytes of the scalars are bytes of the value. -/
theorem fieldByte_lt : (t : Ty) → (k : Nat) → fieldByte t k → k < sizeOf t
  | .scal s, k, h => by rw [sizeOf]; exact h
  | .agg es, k, h => by
    rw [sizeOf]
    have := fieldBytes_lt es 0 k (by simpa [fieldByte] using h)
    have := le_alignUp (n := endFrom es 0) (max_pow es)
    omega
  | .arr n e, k, h => by
    rw [fieldByte] at h
    obtain ⟨j, h1, h2, h3⟩ := h
    have := fieldByte_lt e _ h3
    rw [sizeOf]
    have h4 : (j + 1) * sizeOf e ≤ n * sizeOf e := Nat.mul_le_mul_right _ h1
    rw [Nat.add_mul] at h4
    omega
theorem fieldBytes_lt : (es : Tys) → (off k : Nat) → fieldBytes es off k → k < endFrom es off
  | .nil, _, _, h => by simp [fieldBytes] at h
  | .cons t rest, off, k, h => by
    rw [fieldBytes] at h
    rw [endFrom]
    have := endFrom_ge rest (alignUp off (alignOf t) + sizeOf t)
    rcases h with ⟨h1, h2⟩ | h
    · have := fieldByte_lt t _ h2; omega
    · exact fieldBytes_lt rest _ _ h
end

end Nature.Abi

namespace Nature.Abi.Rv
open Nature.TypeLayout

mutual
/-- No floating point number in it. -/
def noF : Ty → Bool
  | .scal s => !s.isF
  | .agg es => noFs es
  | .arr _ e => noF e
def noFs : Tys → Bool
  | .nil => true
  | .cons t rest => noF t && noFs rest
end

def isScal : Ty → Bool
  | .scal _ => true
  | _ => false

mutual
/-- What the code handles in a struct of up to 16 bytes: arrays of length 0 do not exist, and in an array of two elements these are
scalars, or objects (with something in them) without floating point numbers. -/
def okTy : Ty → Bool
  | .scal _ => true
  | .agg es => okTys es
  | .arr n e => decide (2 < n) || (decide (n ≠ 0) && okTy e && (decide (n = 1) || isScal e || (noF e && decide (sizeOf e ≠ 0))))
def okTys : Tys → Bool
  | .nil => true
  | .cons t rest => okTy t && okTys rest
end

/-- What is known of the entries added for the bytes `[lo, hi)` of the value. -/
structure Added (new : List Ent) (B : Nat → Prop) (lo hi : Nat) (nf : Bool) : Prop where
  cover : ∀ k, B k → ∃ e ∈ new, e.off ≤ k ∧ k < e.off + e.kind.size
  range : ∀ e ∈ new, lo ≤ e.off ∧ e.off + e.kind.size ≤ hi
  pw : new.Pairwise fun a b => a.off + a.kind.size ≤ b.off
  noF : nf = true → ∀ e ∈ new, e.fl = false
  kind : ∀ e ∈ new, e.fl = e.kind.isF

theorem size_pos (s : Scal) : 0 < s.size ∧ s.size ≤ 8 := by cases s <;> simp [Scal.size]

mutual
theorem rec_added : (t : Ty) → (r r' : RC) → (off : Nat) → rec t r off = some r' → okTy t = true → Aligned off (alignOf t) →
    off + sizeOf t < 65536 → r.neg = false → r.ents.length ≤ 2 → r'.neg = false →
    r'.ents.length ≤ 2 ∧ ∃ new, r'.ents = r.ents ++ new ∧ Added new (fun k => off ≤ k ∧ fieldByte t (k - off)) off (off + sizeOf t) (noF t) ∧
      (new = [] → sizeOf t = 0 ∧ alignOf t = 0)
  | .scal s, r, r', off, h, _, _, _, hn, hl, hn' => by
    simp only [rec] at h
    split at h
    · cases h; cases hn'
    · rename_i h1
      split at h
      · cases h
        refine ⟨by simp; omega, _, rfl, ⟨?_, ?_, ?_, ?_, ?_⟩, by simp⟩
        · rintro k ⟨h2, h3⟩
          refine ⟨_, List.mem_singleton.2 rfl, h2, ?_⟩
          simp only [fieldByte] at h3
          dsimp only; omega
        · intro e he; rw [List.mem_singleton] at he; subst he; rw [sizeOf]; exact ⟨Nat.le_refl _, Nat.le_refl _⟩
        · simp
        · intro h e he; rw [List.mem_singleton] at he; subst he; simpa [noF] using h
        · intro e he; rw [List.mem_singleton] at he; subst he; rfl
      · cases h; cases hn'
  | .agg es, r, r', off, h, hok, ha, hsz, hn, hl, hn' => by
    simp only [rec] at h
    rw [sizeOf] at hsz
    rw [okTy] at hok
    rw [alignOf] at ha
    have hle := le_alignUp (n := endFrom es 0) (max_pow es)
    obtain ⟨h1, new, h2, h3, h4⟩ := recAll_added es r r' off 0 h hok ha (by omega) hn hl hn'
    refine ⟨h1, new, h2, ⟨?_, ?_, h3.pw, ?_, h3.kind⟩, ?_⟩
    · rintro k ⟨k1, k2⟩
      exact h3.cover k ⟨k1, by simpa [fieldByte] using k2⟩
    · intro e he
      have := h3.range e he
      rw [sizeOf]; omega
    · intro h; exact h3.noF (by simpa [noF] using h)
    · intro h
      have := h4 h
      rw [sizeOf, alignOf, this.1, this.2]; exact ⟨rfl, rfl⟩
  | .arr n e, r, r', off, h, hok, ha, hsz, hn, hl, hn' => by
    simp only [rec] at h
    split at h
    · cases h; cases hn'
    · rename_i hn2
      rw [okTy] at hok
      simp only [hn2, decide_false, Bool.false_or, Bool.and_eq_true, decide_eq_true_eq] at hok
      obtain ⟨⟨hn0, hok1⟩, hok2⟩ := hok
      rw [alignOf] at ha
      cases h1 : rec e r off with
      | none => rw [h1] at h; cases h
      | some r1 =>
        simp only [h1, Option.bind_eq_bind, Option.bind_some] at h
        have hse : sizeOf e ≤ sizeOf (.arr n e) := by rw [sizeOf]; exact Nat.le_mul_of_pos_left _ (by omega)
        have key := rec_added e r r1 off h1 hok1 ha (by omega) hn hl
        split at h
        · cases h; cases hn'
        · rename_i hA
          split at h
          · rename_i hB
            split at h
            · cases h
            · rename_i hneg
              have hneg : r1.neg = false := by simpa using hneg
              obtain ⟨k1, new, k2, k3, k4⟩ := key hneg
              obtain ⟨rfl, hB2, hB3⟩ := hB
              have hlen : r1.ents.length ≤ 1 := by
                by_cases h2 : r1.ents.length = 2
                · exact absurd ⟨hneg, .inr ⟨h2, by omega⟩⟩ hA
                · omega
              have hnew : new ≠ [] := by
                intro h0
                have := k4 h0
                simp only [Bool.or_eq_true, Bool.and_eq_true, decide_eq_true_eq] at hok2
                rcases hok2 with (h | h) | h
                · omega
                · cases e with
                  | agg _ => cases h
                  | arr _ _ => cases h
                  | scal s =>
                    rw [sizeOf] at this
                    have := size_pos s
                    omega
                · exact h.2 this.1
              cases new with
              | nil => exact absurd rfl hnew
              | cons x rest =>
                rw [k2] at hlen
                simp only [List.length_append, List.length_cons] at hlen
                have hre : r.ents = [] := List.length_eq_zero_iff.1 (by omega)
                have hrest : rest = [] := List.length_eq_zero_iff.1 (by omega)
                subst hrest
                rw [hre] at k2
                simp only [List.nil_append] at k2
                have hx : x.fl = true := by simpa [RC.fl1, k2] using hB3
                simp only [Bool.or_eq_true, Bool.and_eq_true, decide_eq_true_eq] at hok2
                have hsc : isScal e = true := by
                  rcases hok2 with (h | h) | h
                  · omega
                  · exact h
                  · have := k3.noF h.1 x (List.mem_singleton.2 rfl)
                    rw [hx] at this; cases this
                cases e with
                | agg _ => cases hsc
                | arr _ _ => cases hsc
                | scal s =>
                  have hxe : r1.ents = [⟨s.isF, s, off⟩] := by
                    simp only [rec] at h1
                    split at h1
                    · cases h1; cases hneg
                    · split at h1
                      · cases h1; simp [hre]
                      · cases h1; cases hneg
                  rw [k2] at hxe
                  simp only [List.cons.injEq, and_true] at hxe
                  have hsF : s.isF = true := by rw [hxe] at hx; exact hx
                  have hsp := size_pos s
                  have hmod : sizeOf (.scal s) % 256 = s.size := by rw [sizeOf]; omega
                  cases h
                  rw [hmod]
                  refine ⟨by simp [k2], [x, ⟨true, s, off + s.size⟩], by simp [k2, hre, immKind], ?_, by simp⟩
                  subst hxe
                  have harr : sizeOf (.arr 2 (.scal s)) = s.size + s.size := by rw [sizeOf, sizeOf]; omega
                  refine ⟨?_, ?_, ?_, ?_, ?_⟩
                  · rintro k ⟨g1, g2⟩
                    rw [fieldByte] at g2
                    obtain ⟨j, j1, j2, j3⟩ := g2
                    simp only [fieldByte, sizeOf] at j2 j3
                    have : j = 0 ∨ j = 1 := by omega
                    rcases this with rfl | rfl
                    · exact ⟨_, List.mem_cons_self .., by dsimp only; omega, by dsimp only; omega⟩
                    · exact ⟨_, List.mem_cons_of_mem _ (List.mem_cons_self ..), by dsimp only; omega, by dsimp only; omega⟩
                  · intro e he
                    rw [harr]
                    simp only [List.mem_cons, List.not_mem_nil, or_false] at he
                    rcases he with rfl | rfl <;> dsimp only <;> omega
                  · simp
                  · intro h; simp [noF, hsF] at h
                  · intro e he
                    simp only [List.mem_cons, List.not_mem_nil, or_false] at he
                    rcases he with rfl | rfl <;> simp [hsF]
          · rename_i hB
            split at h
            · cases h; cases hn'
            · rename_i hn1
              have : n = 1 := by omega
              subst this
              cases h
              obtain ⟨k1, new, k2, k3, k4⟩ := key hn'
              have harr : sizeOf (.arr 1 e) = sizeOf e := by rw [sizeOf]; omega
              refine ⟨k1, new, k2, ⟨?_, ?_, k3.pw, ?_, k3.kind⟩, ?_⟩
              · rintro k ⟨g1, g2⟩
                rw [fieldByte] at g2
                obtain ⟨j, j1, j2, j3⟩ := g2
                have : j = 0 := by omega
                subst this
                exact k3.cover k ⟨g1, by simpa using j3⟩
              · rw [harr]; exact k3.range
              · intro h; exact k3.noF (by simpa [noF] using h)
              · rw [harr, alignOf]; exact k4
theorem recAll_added : (es : Tys) → (r r' : RC) → (b off : Nat) → recAll es r (b + off) = some r' → okTys es = true → Aligned b (maxAlign es) →
    b + endFrom es off < 65536 → r.neg = false → r.ents.length ≤ 2 → r'.neg = false →
    r'.ents.length ≤ 2 ∧ ∃ new, r'.ents = r.ents ++ new ∧ Added new (fun k => b ≤ k ∧ fieldBytes es off (k - b)) (b + off) (b + endFrom es off) (noFs es) ∧
      (new = [] → endFrom es off = off ∧ maxAlign es = 0)
  | .nil, r, r', b, off, h, _, _, _, hn, hl, hn' => by
    simp only [recAll] at h; cases h
    refine ⟨hl, [], by simp, ⟨?_, by simp, by simp, by simp, by simp⟩, fun _ => ⟨rfl, rfl⟩⟩
    rintro k ⟨_, h⟩; simp [fieldBytes] at h
  | .cons t rest, r, r', b, off, h, hok, ha, hsz, hn, hl, hn' => by
    simp only [recAll] at h
    rw [okTys, Bool.and_eq_true] at hok
    rw [maxAlign] at ha
    rw [endFrom] at hsz
    have ha1 : Aligned b (alignOf t) := aligned_mono (align_pow t) (powAlign_max (align_pow t) (max_pow rest)) (Nat.le_max_left ..) ha
    have ha2 : Aligned b (maxAlign rest) := aligned_mono (max_pow rest) (powAlign_max (align_pow t) (max_pow rest)) (Nat.le_max_right ..) ha
    have hau := alignUp_add (n := off) (align_pow t) ha1
    have hge := endFrom_ge rest (alignUp off (alignOf t) + sizeOf t)
    have hal := le_alignUp (n := off) (align_pow t)
    rw [hau] at h
    cases h1 : rec t r (b + alignUp off (alignOf t)) with
    | none => rw [h1] at h; cases h
    | some r1 =>
      simp only [h1, Option.bind_eq_bind, Option.bind_some] at h
      split at h
      · rename_i hneg; cases h; rw [hn'] at hneg; cases hneg
      · rename_i hneg
        have hneg : r1.neg = false := by simpa using hneg
        have hal2 : Aligned (b + alignUp off (alignOf t)) (alignOf t) := by rw [← hau]; exact alignUp_aligned (align_pow t)
        obtain ⟨k1, new, k2, k3, k4⟩ := rec_added t r r1 _ h1 hok.1 hal2 (by omega) hn hl hneg
        have hmod : sizeOf t % 65536 = sizeOf t := Nat.mod_eq_of_lt (by omega)
        rw [hmod, Nat.add_assoc] at h
        obtain ⟨m1, new', m2, m3, m4⟩ := recAll_added rest r1 r' b _ h hok.2 ha2 hsz hneg k1 hn'
        refine ⟨m1, new ++ new', by rw [m2, k2, List.append_assoc], ⟨?_, ?_, ?_, ?_, ?_⟩, ?_⟩
        · rintro k ⟨g1, g2⟩
          rw [fieldBytes] at g2
          rcases g2 with ⟨g2, g3⟩ | g2
          · obtain ⟨e, he, q⟩ := k3.cover k ⟨by omega, by rw [← Nat.sub_sub]; exact g3⟩
            exact ⟨e, List.mem_append_left _ he, q⟩
          · obtain ⟨e, he, q⟩ := m3.cover k ⟨g1, g2⟩
            exact ⟨e, List.mem_append_right _ he, q⟩
        · intro e he
          rw [endFrom]
          rcases List.mem_append.1 he with he | he
          · have := k3.range e he; omega
          · have := m3.range e he; omega
        · refine List.pairwise_append.2 ⟨k3.pw, m3.pw, fun a ha b hb => ?_⟩
          have := k3.range a ha; have := m3.range b hb; omega
        · intro h e he
          simp only [noFs, Bool.and_eq_true] at h
          rcases List.mem_append.1 he with he | he
          · exact k3.noF h.1 e he
          · exact m3.noF h.2 e he
        · intro e he
          rcases List.mem_append.1 he with he | he
          · exact k3.kind e he
          · exact m3.kind e he
        · intro h0
          obtain ⟨h1, h2⟩ := List.append_eq_nil_iff.1 h0
          have z1 := k4 h1
          have z2 := m4 h2
          rw [endFrom, maxAlign, z2.1, z2.2, z1.1, z1.2]
          exact ⟨rfl, rfl⟩
end

/-- The parts a value is split into. -/
structure Split (t : Ty) (es : List Ent) : Prop where
  len : (∃ a, es = [a]) ∨ ∃ a b, es = [a, b]
  cover : ∀ k, fieldByte t k → ∃ e ∈ es, e.off ≤ k ∧ k < e.off + e.kind.size
  range : ∀ e ∈ es, e.off + e.kind.size ≤ room t
  pw : es.Pairwise fun a b => a.off + a.kind.size ≤ b.off
  kind : ∀ e ∈ es, e.fl = e.kind.isF

theorem intKind_size {n : Nat} (h : n ≤ 8) : n ≤ (intKind n).size ∧ (intKind n).size ≤ 8 ∧ (intKind n).isF = false := by
  unfold intKind
  split
  · simp [Scal.size, Scal.isF]; omega
  · split
    · simp [Scal.size, Scal.isF]; omega
    · split <;> simp [Scal.size, Scal.isF] <;> omega

theorem regPass_split {t : Ty} {nv : Nat} {es : List Ent} {k : Scal} (h : regPass t nv = some (es, k)) (hok : okTy t = true)
    (h0 : sizeOf t ≠ 0) (h16 : sizeOf t ≤ 16) : Split t es := by
  unfold regPass at h
  cases h1 : rec t ⟨false, []⟩ 0 with
  | none => rw [h1] at h; cases h
  | some r =>
    simp only [h1, Option.bind_eq_bind, Option.bind_some] at h
    have hmod : sizeOf t % 65536 = sizeOf t := Nat.mod_eq_of_lt (by omega)
    have hroom : sizeOf t ≤ room t ∧ (8 < sizeOf t → 16 ≤ room t) ∧ 8 ≤ room t := by
      unfold room; rw [alignUp_eight]; split <;> omega
    by_cases hc : r.neg = true ∨ r.ents.length = 0 ∨ (bothF r.ents = true ∧ 7 ≤ nv)
    · rw [if_pos hc] at h
      simp only [hmod, Option.some.injEq, Prod.mk.injEq] at h
      obtain ⟨rfl, -⟩ := h
      by_cases h8 : 8 < sizeOf t
      · rw [if_pos h8]
        have hk := intKind_size (n := sizeOf t - 8) (by omega)
        refine ⟨.inr ⟨_, _, rfl⟩, ?_, ?_, ?_, ?_⟩
        · intro k hk'
          have := fieldByte_lt t k hk'
          by_cases hk8 : k < 8
          · exact ⟨_, List.mem_cons_self .., by dsimp only; omega, by simp [Scal.size]; omega⟩
          · exact ⟨_, List.mem_cons_of_mem _ (List.mem_cons_self ..), by dsimp only; omega, by dsimp only; omega⟩
        · intro e he
          simp only [List.mem_cons, List.not_mem_nil, or_false] at he
          rcases he with rfl | rfl
          · simp [Scal.size]; omega
          · dsimp only; omega
        · simp [Scal.size]
        · intro e he
          simp only [List.mem_cons, List.not_mem_nil, or_false] at he
          rcases he with rfl | rfl
          · rfl
          · exact hk.2.2.symm
      · rw [if_neg h8]
        by_cases h0' : 0 < sizeOf t
        · rw [if_pos h0']
          have hk := intKind_size (n := sizeOf t) (by omega)
          refine ⟨.inl ⟨_, rfl⟩, ?_, ?_, by simp, ?_⟩
          · intro k hk'
            have := fieldByte_lt t k hk'
            exact ⟨_, List.mem_cons_self .., by dsimp only; omega, by dsimp only; omega⟩
          · intro e he
            simp only [List.mem_cons, List.not_mem_nil, or_false] at he
            subst he; dsimp only; omega
          · intro e he
            simp only [List.mem_cons, List.not_mem_nil, or_false] at he
            subst he; exact hk.2.2.symm
        · omega
    · rw [if_neg hc] at h
      simp only [Option.some.injEq, Prod.mk.injEq] at h
      obtain ⟨rfl, -⟩ := h
      have hn : r.neg = false := by cases hr : r.neg with | false => rfl | true => exact absurd (.inl hr) hc
      have hl : r.ents.length ≠ 0 := fun hr => hc (.inr (.inl hr))
      have hal : Aligned 0 (alignOf t) := by unfold Aligned; simp
      obtain ⟨k1, new, k2, k3, k4⟩ := rec_added t _ r 0 h1 hok hal (by omega) rfl (by simp) hn
      simp only [List.nil_append] at k2
      rw [k2] at k1 hl ⊢
      refine ⟨?_, fun k hk => k3.cover k ⟨Nat.zero_le _, hk⟩, fun e he => by have := k3.range e he; omega, k3.pw, k3.kind⟩
      match new, k1, hl with
      | [a], _, _ => exact .inl ⟨a, rfl⟩
      | [a, b], _, _ => exact .inr ⟨a, b, rfl⟩

/-! ### Places -/

/-- The place a position and a kind stand for. -/
def plOf (pos : Nat) (k : Scal) : PL :=
  if pos < 32 then
    if k.isF then .fp (if pos < 16 then pos / 2 else (pos - 16) / 2) else .gp (if pos < 16 then pos / 2 else (pos - 16) / 2)
  else .stk (pos - pos % 2 - 32)

theorem plOf_reg {pos : Nat} {k : Scal} (h : pos < 32) : (plOf pos k).opd = regOf pos k ∧ (plOf pos k).isStk = false := by
  unfold plOf regOf
  rw [if_pos h]
  split <;> exact ⟨rfl, rfl⟩

theorem plOf_stk {pos : Nat} {k : Scal} (h : 32 ≤ pos) : (plOf pos k).opd = .spo (pos - pos % 2 - 32) ∧ (plOf pos k).isStk = true := by
  unfold plOf
  rw [if_neg (by omega)]
  exact ⟨rfl, rfl⟩

theorem plOf_in (pos : Nat) (k : Scal) : (plOf pos k).opdIn = inOpd pos k := by
  unfold plOf inOpd regOf
  split
  · dsimp only; split <;> rfl
  · rfl

/-- How an argument with a position travels. -/
def placeOf (p : Pos) : Place :=
  if p.main % 2 = 1 then .ref (plOf p.main .i64)
  else .parts ((plOf p.main p.kind, 0, p.kind.size) :: match p.attach with | none => [] | some (a, k, off) => [(plOf a k, off, k.size)])

/-- The next place for something of kind `k`. -/
inductive Slot (k : Scal) (nx nv ns : Nat) : (pos nx' nv' ns' : Nat) → Prop
  | gp : k.isF = false → nx < 8 → Slot k nx nv ns (2 * nx) (nx + 1) nv ns
  | fp : k.isF = true → nv < 8 → Slot k nx nv ns (16 + 2 * nv) nx (nv + 1) ns
  | stk : Slot k nx nv ns ns nx nv (ns + 8)

/-- The cases of `posOf`. -/
inductive Case (t : Ty) (nx nv ns : Nat) : (p : Pos) → (nx' nv' ns' : Nat) → Prop
  | refReg : t.ind = true → nx < 8 → Case t nx nv ns ⟨2 * nx + 1, .i64, none⟩ (nx + 1) nv ns
  | refStk : t.ind = true → Case t nx nv ns ⟨ns + 1, .i64, none⟩ nx nv (ns + 8)
  | scal {s m nx' nv' ns'} : t = .scal s → Slot s nx nv ns m nx' nv' ns' → Case t nx nv ns ⟨m, s, none⟩ nx' nv' ns'
  | one {es a m nx' nv' ns'} : t = .agg es → Split t [a] → a.off = 0 → Slot a.kind nx nv ns m nx' nv' ns' →
      Case t nx nv ns ⟨m, a.kind, none⟩ nx' nv' ns'
  | two {es a b m m' nx1 nv1 ns1 nx' nv' ns'} : t = .agg es → Split t [a, b] → a.off = 0 → Slot a.kind nx nv ns m nx1 nv1 ns1 →
      Slot b.kind nx1 nv1 ns1 m' nx' nv' ns' → Case t nx nv ns ⟨m, a.kind, some (m', b.kind, b.off)⟩ nx' nv' ns'

/-- An argument the code handles: a struct is not empty, its size fits 16 bits, and if it has at most 16 bytes it is as `okTy`
says. -/
def fits1 : Ty → Bool
  | .agg es => decide (sizeOf (.agg es) ≠ 0) && decide (sizeOf (.agg es) < 65536) && (decide (16 < sizeOf (.agg es)) || okTys es)
  | _ => true

theorem regPass_scal (s : Scal) (nv : Nat) : regPass (.scal s) nv = some ([⟨s.isF, s, 0⟩], s) := by
  simp [regPass, rec, bothF]

theorem posOf_case {t : Ty} {nx nv ns : Nat} {r : Pos × Nat × Nat × Nat} (h : posOf t nx nv ns = some r) (hf : fits1 t = true) :
    Case t nx nv ns r.1 r.2.1 r.2.2.1 r.2.2.2 := by
  unfold posOf at h
  dsimp only at h
  split at h
  · rename_i hc
    split at h
    · rename_i hx; cases h; exact .refReg hc.1 hx
    · cases h; exact .refStk hc.1
  · rename_i hc
    cases t with
    | arr n e => exact absurd ⟨rfl, .inl rfl⟩ hc
    | scal s =>
      have hs : sizeOf (.scal s) % 65536 ≠ 0 := by rw [sizeOf]; have := size_pos s; omega
      simp only [regPass_scal, Option.bind_eq_bind, Option.bind_some, if_neg hs] at h
      simp only [ne_eq, not_true_eq_false, if_false] at h
      split at h
      · cases h; exact .scal rfl .stk
      · rename_i h1
        split at h
        · rename_i h2; cases h; exact .scal rfl (.fp h2 (Nat.lt_of_not_le fun h => h1 (.inr ⟨h2, h⟩)))
        · rename_i h2
          have h2 : s.isF = false := by simpa using h2
          cases h; exact .scal rfl (.gp h2 (Nat.lt_of_not_le fun h => h1 (.inl ⟨h2, h⟩)))
    | agg es =>
      simp only [fits1, Bool.and_eq_true, Bool.or_eq_true, decide_eq_true_eq] at hf
      obtain ⟨⟨f1, f2⟩, f3⟩ := hf
      have hmod : sizeOf (.agg es) % 65536 = sizeOf (.agg es) := Nat.mod_eq_of_lt f2
      rw [hmod] at hc h
      have h16 : sizeOf (.agg es) ≤ 16 := by
        by_cases hh : 16 < sizeOf (.agg es)
        · exact absurd ⟨rfl, .inr hh⟩ hc
        · omega
      cases hp : regPass (.agg es) nv with
      | none => rw [hp] at h; cases h
      | some q =>
        obtain ⟨en, k⟩ := q
        have S := regPass_split hp (by rw [okTy]; exact f3.resolve_left (by omega)) f1 h16
        simp only [hp, Option.bind_eq_bind, Option.bind_some, if_neg f1] at h
        rcases S.len with ⟨a, rfl⟩ | ⟨a, b, rfl⟩
        · have ka := S.kind a (by simp)
          dsimp only at h
          split at h
          · cases h
          · rename_i h0
            have h0 : a.off = 0 := by omega
            split at h
            · cases h; exact .one rfl S h0 .stk
            · rename_i h1
              split at h
              · rename_i h2; cases h
                exact .one rfl S h0 (.fp (by rw [← ka]; exact h2) (Nat.lt_of_not_le fun h => h1 (.inr ⟨h2, h⟩)))
              · rename_i h2
                have h2 : a.fl = false := by simpa using h2
                cases h; exact .one rfl S h0 (.gp (by rw [← ka]; exact h2) (Nat.lt_of_not_le fun h => h1 (.inl ⟨h2, h⟩)))
        · have ka := S.kind a (by simp)
          have kb := S.kind b (by simp)
          dsimp only at h
          split at h
          · cases h
          · rename_i h0
            have h0 : a.off = 0 := by omega
            split at h
            · cases h; exact .two rfl S h0 .stk .stk
            · rename_i h1
              cases ha : a.fl with
              | true =>
                have hv : nv < 8 := Nat.lt_of_not_le fun h => h1 (.inr (.inl ⟨ha, h⟩))
                have s1 : Slot a.kind nx nv ns (16 + 2 * nv) nx (nv + 1) ns := .fp (by rw [← ka]; exact ha) hv
                simp only [ha, if_true] at h
                split at h
                · rename_i h2; cases h
                  exact .two rfl S h0 s1 (.fp (by rw [← kb]; exact h2.1) h2.2)
                · split at h
                  · rename_i h2; cases h
                    exact .two rfl S h0 s1 (.gp (by rw [← kb]; exact h2.1) h2.2)
                  · cases h; exact .two rfl S h0 s1 .stk
              | false =>
                have hx : nx < 8 := Nat.lt_of_not_le fun h => h1 (.inl ⟨ha, h⟩)
                have s1 : Slot a.kind nx nv ns (2 * nx) (nx + 1) nv ns := .gp (by rw [← ka]; exact ha) hx
                simp only [ha, if_false, Bool.false_eq_true] at h
                split at h
                · rename_i h2; cases h
                  exact .two rfl S h0 s1 (.fp (by rw [← kb]; exact h2.1) h2.2)
                · split at h
                  · rename_i h2; cases h
                    exact .two rfl S h0 s1 (.gp (by rw [← kb]; exact h2.1) h2.2)
                  · cases h; exact .two rfl S h0 s1 .stk

theorem Slot.mono {k : Scal} {nx nv ns m nx' nv' ns' : Nat} (h : Slot k nx nv ns m nx' nv' ns') (hx : nx ≤ 8) (hv : nv ≤ 8) (hn : ns % 8 = 0)
    (hs : 32 ≤ ns) : nx ≤ nx' ∧ nx' ≤ 8 ∧ nv ≤ nv' ∧ nv' ≤ 8 ∧ ns ≤ ns' ∧ ns' % 8 = 0 ∧ m % 2 = 0 := by
  cases h <;> refine ⟨?_, ?_, ?_, ?_, ?_, ?_, ?_⟩ <;> omega

theorem Case.mono {t : Ty} {nx nv ns nx' nv' ns' : Nat} {p : Pos} (h : Case t nx nv ns p nx' nv' ns') (hx : nx ≤ 8) (hv : nv ≤ 8) (hn : ns % 8 = 0)
    (hs : 32 ≤ ns) : nx ≤ nx' ∧ nx' ≤ 8 ∧ nv ≤ nv' ∧ nv' ≤ 8 ∧ ns ≤ ns' ∧ ns' % 8 = 0 := by
  cases h with
  | refReg => refine ⟨?_, ?_, ?_, ?_, ?_, ?_⟩ <;> omega
  | refStk => refine ⟨?_, ?_, ?_, ?_, ?_, ?_⟩ <;> omega
  | scal _ h => have := h.mono hx hv hn hs; omega
  | one _ _ _ h => have := h.mono hx hv hn hs; omega
  | two _ _ _ h h' =>
    have a := h.mono hx hv hn hs
    have := h'.mono a.2.1 a.2.2.2.1 a.2.2.2.2.2.1 (by omega)
    omega

end Nature.Abi.Rv
