import Verif.Abi.Ret
import Verif.Abi.SysvArgs
namespace Nature.Abi.Sysv
open Nature.TypeLayout

/-- A call gets the result returned. -/
theorem ret_ok {t : Ty} {r b : Int} {e e' : Env} {s3 : State} (h : Returning t (if (cls t).isNone then [.big] else [.res]) r b s3) :
    ∃ rops sops, lowerReturn t = some rops ∧ lowerResult t = some sops ∧
      ∃ s4 s5, exec e rops s3 = some s4 ∧ exec e' sops s4 = some s5 ∧ Returned allBytes t r b s3 s5 := by
  cases hc : cls t with
  | none =>
    have ht : t.ind = true := by
      cases t with
      | scal s => rw [cls_scal] at hc; cases hc
      | _ => rfl
    refine ⟨memMov 0 (sizeOf t) .big .ret ++ [.mov (.gp 0) (.var .big) 8], _, by simp only [lowerReturn, hc, ht, if_true], by simp only [lowerResult, hc]; rfl, ?_⟩
    rw [hc] at h
    exact big_ok (p := .gp 0) (fun k hk => hk) ht rfl h
  | some p =>
    obtain ⟨lo, hi⟩ := p
    rw [hc] at h
    obtain ⟨c1, c2, c3, c4, c5⟩ := cls_spec hc
    have htwo : two hi = true ↔ 8 < sizeOf t := by rw [← c2]; simp [two]
    cases t with
    | arr n e => rw [cls_arr] at hc; cases hc
    | scal s =>
      have h2 : two hi = false := by
        have : ¬ 8 < sizeOf (.scal s) := by rw [sizeOf]; cases s <;> simp [Scal.size]
        cases h' : two hi
        · rfl
        · exact absurd (htwo.1 h') this
      refine ⟨_, _, by simp only [lowerReturn, hc, h2, Bool.false_eq_true, if_false]; rfl,
        by simp only [lowerResult, hc, h2, Bool.false_eq_true, if_false]; rfl, ?_⟩
      have key := scal_ok (P := allBytes) (s := s) (e := e) (e' := e') (r := r) (b := b) (s3 := s3)
        (p := if lo = .integer then .gp 0 else .fp 0) (by split <;> rfl)
      have he : (if lo = .integer then PL.gp 0 else PL.fp 0).opd = if lo = .integer then Opd.gp 0 else Opd.fp 0 := by split <;> rfl
      rw [he] at key
      exact key
    | agg es =>
      let p1 : PL := if lo = .integer then .gp 0 else .fp 0
      let p2 : PL := if hi = .integer then .gp 2 else .fp 1
      let ps : List (PL × Nat × Nat) := (p1, 0, 8) :: if two hi then [(p2, 8, 8)] else []
      have e1 : p1.opd = if lo = .integer then Opd.gp 0 else Opd.fp 0 := by simp only [p1]; split <;> rfl
      have e2 : p2.opd = if hi = .integer then Opd.gp 2 else Opd.fp 1 := by simp only [p2]; split <;> rfl
      have s1 : p1.isStk = false := by simp only [p1]; split <;> rfl
      have s2 : p2.isStk = false := by simp only [p2]; split <;> rfl
      have hne : p1 ≠ p2 := by simp only [p1, p2]; split <;> split <;> simp
      have hroom : 8 ≤ room (.agg es) ∧ (8 < sizeOf (.agg es) → 16 ≤ room (.agg es)) := by
        unfold room
        rw [alignUp_eight]
        split <;> omega
      refine ⟨retOps ps, resOps ps, ?_, ?_, regs_ok rfl ?_ ?_ ?_ ?_ h⟩
      · simp only [lowerReturn, hc, retOps, ps]
        cases two hi <;> simp [e1, e2]
      · simp only [lowerResult, hc, resOps, ps]
        cases two hi <;> simp [e1, e2]
      · simp only [ps]
        cases h2 : two hi
        · simp [Regs, s1]
        · simp [Regs, s1, s2, hne]
      · simp only [ps]
        cases h2 : two hi
        · simp; omega
        · have := htwo.1 h2; simp; omega
      · simp only [ps]
        cases h2 : two hi <;> simp
      · intro k (hk : k < sizeOf (.agg es))
        simp only [ps]
        cases h2 : two hi
        · have : ¬ 8 < sizeOf (.agg es) := fun h => by rw [htwo.2 h] at h2; cases h2
          exact ⟨(p1, 0, 8), by simp, by simp, by simp; omega⟩
        · by_cases hk8 : k < 8
          · exact ⟨(p1, 0, 8), by simp, by simp, by simp; omega⟩
          · exact ⟨(p2, 8, 8), by simp, by simp; omega, by simp; omega⟩

end Nature.Abi.Sysv
