import Verif.Layout.Model
import Verif.Layout.Spec

/-!
# Places of sections
-/

namespace Nature.Layout

open Spec (Tbss Aligned Apart Sized Fits)

theorem alignUp_some (v a r : Nat) (h : alignUp v a = some r) :
    v ≤ r ∧ (a = 0 ∨ r % a = 0) ∧
      r = (v + ((if a = 0 then 1 else a) - 1)) / (if a = 0 then 1 else a) * (if a = 0 then 1 else a) := by
  have key : ∀ A : Nat, (if A &&& (A - 1) ≠ 0 ∨ v > u64Max - (A - 1) then none
      else some ((v + (A - 1)) / A * A)) = some r → r = (v + (A - 1)) / A * A := by
    intro A hA
    split at hA
    · simp at hA
    · exact (Option.some.inj hA).symm
  have hr := key _ h
  refine ⟨?_, ?_, hr⟩
  · have hA : 0 < (if a = 0 then 1 else a) := by split <;> omega
    generalize (if a = 0 then 1 else a) = A at hr hA
    have h1 := Nat.div_add_mod (v + (A - 1)) A
    have h2 := Nat.mod_lt (v + (A - 1)) hA
    rw [Nat.mul_comm] at h1
    omega
  · by_cases h0 : a = 0
    · exact Or.inl h0
    · rw [if_neg h0] at hr
      right
      rw [hr]
      exact Nat.mul_mod_left _ _

theorem alignUp_shift (base v a r r' : Nat) (hb : a = 0 ∨ base % a = 0) (h : alignUp (base + v) a = some r)
    (h' : alignUp v a = some r') : r = base + r' := by
  obtain ⟨_, _, e⟩ := alignUp_some _ _ _ h
  obtain ⟨_, _, e'⟩ := alignUp_some _ _ _ h'
  have hA : 0 < (if a = 0 then 1 else a) := by split <;> omega
  have hd : base % (if a = 0 then 1 else a) = 0 := by
    rcases hb with hb | hb
    · simp [hb, Nat.mod_one]
    · split
      · exact Nat.mod_one _
      · exact hb
  generalize (if a = 0 then 1 else a) = A at e e' hA hd
  obtain ⟨k, rfl⟩ := Nat.dvd_of_mod_eq_zero hd
  rw [e, e', Nat.add_assoc, Nat.add_comm (A * k), Nat.add_mul_div_left _ _ hA, Nat.add_mul,
    Nat.mul_comm A k]
  omega

theorem add_some (a b r : Nat) (h : add a b = some r) : r = a + b := by
  unfold add at h
  split at h
  · simp at h
  · exact (Option.some.inj h).symm

/-- A section of the first loop. -/
def isRo (s : Sec) : Bool := s.alloc && !s.write

/-- A section of the second loop. -/
def isRw (s : Sec) : Bool := s.alloc && s.write

theorem layRo_spec (base : Nat) (ss : List Sec) (c fin : Nat) (ps : List Placed)
    (h : layRo base ss c = .ok (ps, fin)) :
    c ≤ fin ∧ ps.map (·.sec) = ss.filter isRo ∧
      (∀ p ∈ ps, c ≤ p.off ∧ p.off + p.sec.fileSize ≤ fin ∧ p.addr = (base + p.off) % 2 ^ 64 ∧
        (p.sec.align = 0 ∨ p.off % p.sec.align = 0)) ∧
      ps.Pairwise fun p q => p.off + p.sec.fileSize ≤ q.off := by
  induction ss generalizing c ps with
  | nil =>
    simp only [layRo, Except.ok.injEq, Prod.mk.injEq] at h
    obtain ⟨rfl, rfl⟩ := h
    simp
  | cons s ss ih =>
    rw [layRo] at h
    split at h
    · rename_i hs
      have hf : isRo s = false := by
        unfold isRo; rcases hs with hs | hs <;> simp [hs]
      have := ih c ps h
      rw [List.filter_cons, if_neg (by simp [hf])]
      exact this
    · rename_i hs
      have hf : isRo s = true := by
        unfold isRo
        revert hs; cases s.alloc <;> cases s.write <;> simp
      split at h
      · simp at h
      · rename_i at' ha
        obtain ⟨a1, a2, _⟩ := alignUp_some _ _ _ ha
        split at h
        · simp at h
        · rename_i next hn
          have hn := add_some _ _ _ hn
          split at h
          · simp at h
          · rename_i ps' fin' hr
            simp only [Except.ok.injEq, Prod.mk.injEq] at h
            obtain ⟨rfl, rfl⟩ := h
            obtain ⟨i1, i2, i3, i4⟩ := ih next ps' hr
            refine ⟨by omega, ?_, ?_, ?_⟩
            · rw [List.filter_cons, if_pos hf, List.map_cons, i2]
            · intro p hp
              rcases List.mem_cons.mp hp with rfl | hp
              · exact ⟨a1, by show at' + s.fileSize ≤ fin'; omega, rfl, a2⟩
              · obtain ⟨j1, j2⟩ := i3 p hp
                exact ⟨by omega, j2⟩
            · rw [List.pairwise_cons]
              refine ⟨?_, i4⟩
              intro q hq
              have := (i3 q hq).1
              show at' + s.fileSize ≤ q.off
              omega

/-- A section that is to be zeroed and takes memory in the program. -/
def Zeroed (s : Sec) : Prop := s.ty = .nobits ∧ ¬ Tbss s ∧ s.size ≠ 0

theorem place_spec (st st' : State) (s : Sec) (p : Placed) (h : place st s = .ok (p, st')) (hz : Sized s) :
    p.sec = s ∧ st.addr ≤ p.addr ∧ st.file ≤ p.off ∧ Aligned p ∧ st.addr ≤ st'.addr ∧
      st.file ≤ st'.file ∧ (¬ Tbss s → p.addr + s.size = st'.addr ∧ p.off + s.fileSize = st'.file) ∧
      (∀ base, Fits base s → st.addr = base + st.file →
        p.addr = base + p.off ∧ (¬ Zeroed s → st'.addr = base + st'.file)) ∧
      (protectedSec s = true → ¬ Tbss s → st.plan.addSection p = .ok st'.plan) ∧
      (protectedSec s = false ∨ Tbss s → st'.plan = st.plan) := by
  unfold place at h
  split at h
  · rename_i addr file ha hf
    obtain ⟨a1, a2, _⟩ := alignUp_some _ _ _ ha
    obtain ⟨f1, f2, _⟩ := alignUp_some _ _ _ hf
    have hal : Aligned ⟨s, addr, file⟩ := by
      unfold Aligned
      simp only
      rcases a2 with a2 | a2
      · exact Or.inl a2
      · rcases f2 with f2 | f2
        · exact Or.inl f2
        · exact Or.inr ⟨a2, f2⟩
    have hsh : ∀ base, Fits base s → st.addr = base + st.file → addr = base + file := by
      intro base hb he
      rw [he] at ha
      exact alignUp_shift base _ _ _ _ hb ha hf
    split at h
    · rename_i ht
      have ht' : Tbss s := by simpa [Tbss] using ht
      split at h
      · simp at h
      · simp only [Except.ok.injEq, Prod.mk.injEq] at h
        obtain ⟨rfl, rfl⟩ := h
        refine ⟨rfl, a1, f1, hal, Nat.le_refl _, Nat.le_refl _, fun hn => absurd ht' hn, ?_,
          fun _ hn => absurd ht' hn, fun _ => rfl⟩
        intro base hb he
        exact ⟨hsh base hb he, fun _ => he⟩
    · rename_i ht
      have ht' : ¬ Tbss s := by simpa [Tbss] using ht
      split at h
      · simp at h
      · rename_i addr' ha'
        have ha' := add_some _ _ _ ha'
        split at h
        · simp at h
        · rename_i file' hf'
          have hf'' : file' = file + s.fileSize := by
            unfold Sized at hz
            split at hf'
            · rename_i hn
              rw [if_pos hn] at hz
              have := Option.some.inj hf'
              omega
            · exact add_some _ _ _ hf'
          have common : ∀ plan : Plan, (Placed.mk s addr file).sec = s ∧ st.addr ≤ addr ∧ st.file ≤ file ∧
              Aligned ⟨s, addr, file⟩ ∧ st.addr ≤ addr' ∧ st.file ≤ file' ∧
              (¬ Tbss s → addr + s.size = addr' ∧ file + s.fileSize = file') ∧
              (∀ base, Fits base s → st.addr = base + st.file →
                addr = base + file ∧ (¬ Zeroed s → addr' = base + file')) := by
            intro _
            refine ⟨rfl, a1, f1, hal, by omega, by omega, fun _ => ⟨ha'.symm, hf''.symm⟩, ?_⟩
            intro base hb he
            have e := hsh base hb he
            refine ⟨e, fun hzero => ?_⟩
            have : s.size = s.fileSize := by
              unfold Sized at hz
              split at hz
              · rename_i hn
                have : s.size = 0 := by
                  rcases Nat.eq_zero_or_pos s.size with h | h
                  · exact h
                  · exact absurd ⟨hn, ht', by omega⟩ hzero
                omega
              · exact hz.symm
            omega
          split at h
          · rename_i hp
            split at h
            · simp at h
            · rename_i plan hpl
              simp only [Except.ok.injEq, Prod.mk.injEq] at h
              obtain ⟨rfl, rfl⟩ := h
              obtain ⟨c1, c2, c3, c4, c5, c6, c7, c8⟩ := common plan
              refine ⟨c1, c2, c3, c4, c5, c6, c7, c8, fun _ _ => hpl, ?_⟩
              rintro (h | h)
              · rw [hp] at h; simp at h
              · exact absurd h ht'
          · rename_i hp
            simp only [Except.ok.injEq, Prod.mk.injEq] at h
            obtain ⟨rfl, rfl⟩ := h
            obtain ⟨c1, c2, c3, c4, c5, c6, c7, c8⟩ := common st.plan
            exact ⟨c1, c2, c3, c4, c5, c6, c7, c8, fun h => absurd h hp, fun _ => rfl⟩
  · simp at h

theorem finalize_spec (plan plan' : Plan) (page file addr file' addr' : Nat)
    (h : plan.finalize page file addr = .ok (plan', file', addr')) :
    plan.finalized = false ∧ plan' = { plan with protectionEnd := addr', finalized := true } ∧
      plan.addressEnd ≤ addr ∧ alignUp file page = some file' ∧ alignUp addr page = some addr' ∧
      plan.address ≤ addr' ∧ page ≠ 0 := by
  unfold Plan.finalize at h
  split at h
  · simp at h
  · rename_i h1
    split at h
    · simp at h
    · rename_i h2
      split at h
      · simp at h
      · split at h
        · simp at h
        · split at h
          · rename_i a b ha hb
            split at h
            · simp at h
            · simp only [Except.ok.injEq, Prod.mk.injEq] at h
              obtain ⟨rfl, rfl, rfl⟩ := h
              exact ⟨by simpa using h1, rfl, by omega, ha, hb, by omega, by omega⟩
          · simp at h

/-- What `before` does. -/
theorem before_spec (page : Nat) (st st' : State) (s : Sec) (h : before page st s = .ok st') :
    (st' = st ∧ (protectedSec s = true → st.plan.finalized = false) ∧
      (protectedSec s = false → transparentSec s = false → s.size ≠ 0 → st.plan.present = true →
        st.plan.finalized = true)) ∨
    (protectedSec s = false ∧ st.plan.present = true ∧
      st.plan.finalize page st.file st.addr = .ok (st'.plan, st'.file, st'.addr)) := by
  unfold before at h
  split at h
  · rename_i hc
    simp only [Bool.and_eq_true, Bool.not_eq_true'] at hc
    split at h
    · simp at h
    · rename_i plan file addr hf
      obtain rfl := Except.ok.inj h
      exact Or.inr ⟨hc.1.1.1.1, hc.1.2, hf⟩
  · rename_i hc
    split at h
    · simp at h
    · rename_i hc2
      obtain rfl := Except.ok.inj h
      refine Or.inl ⟨rfl, ?_, ?_⟩
      · intro hp
        simpa [hp] using hc2
      · intro h1 h2 h3 h4
        simpa [h1, h2, h3, h4] using hc

theorem before_cursors (page base : Nat) (st st' : State) (s : Sec) (h : before page st s = .ok st') :
    st.addr ≤ st'.addr ∧ st.file ≤ st'.file ∧
      (base % page = 0 → st.addr = base + st.file → st'.addr = base + st'.file) := by
  rcases before_spec page st st' s h with ⟨rfl, _⟩ | ⟨_, _, hf⟩
  · exact ⟨Nat.le_refl _, Nat.le_refl _, fun _ h => h⟩
  · obtain ⟨_, _, _, h1, h2, _⟩ := finalize_spec _ _ _ _ _ _ _ hf
    refine ⟨(alignUp_some _ _ _ h2).1, (alignUp_some _ _ _ h1).1, ?_⟩
    intro hb he
    rw [he] at h2
    exact alignUp_shift base _ _ _ _ (Or.inr hb) h2 h1

theorem layRw_spec (page base : Nat) (hp : base % page = 0) (ss : List Sec) (hz : ∀ s ∈ ss, Sized s)
    (hfit : ∀ s ∈ ss, Fits base s) (st fin : State) (ps : List Placed)
    (h : layRw page ss st = .ok (ps, fin)) :
    st.addr ≤ fin.addr ∧ st.file ≤ fin.file ∧ ps.map (·.sec) = ss.filter isRw ∧
      (∀ p ∈ ps, st.addr ≤ p.addr ∧ st.file ≤ p.off ∧ Aligned p ∧
        (¬ Tbss p.sec → p.addr + p.sec.size ≤ fin.addr ∧ p.off + p.sec.fileSize ≤ fin.file)) ∧
      ps.Pairwise Apart ∧
      (st.addr = base + st.file → ∀ (i : Nat) (p : Placed), ps[i]? = some p →
        (∀ (j : Nat) (q : Placed), j < i → ps[j]? = some q → ¬ Zeroed q.sec) → p.addr = base + p.off) := by
  induction ss generalizing st ps with
  | nil =>
    simp only [layRw, Except.ok.injEq, Prod.mk.injEq] at h
    obtain ⟨rfl, rfl⟩ := h
    simp
  | cons s ss ih =>
    have ih := fun st ps h => ih (fun x hx => hz x (by simp [hx])) (fun x hx => hfit x (by simp [hx])) st ps h
    rw [layRw] at h
    split at h
    · rename_i hs
      have hf : isRw s = false := by
        unfold isRw; rcases hs with hs | hs <;> simp [hs]
      rw [List.filter_cons, if_neg (by simp [hf])]
      exact ih st ps h
    · rename_i hs
      have hf : isRw s = true := by
        unfold isRw
        revert hs; cases s.alloc <;> cases s.write <;> simp
      split at h
      · simp at h
      · rename_i st1 hb
        obtain ⟨b1, b2, b3⟩ := before_cursors page base st st1 s hb
        split at h
        · simp at h
        · rename_i p st2 hpl
          obtain ⟨c1, c2, c3, c4, c5, c6, c7, c8, _, _⟩ := place_spec st1 st2 s p hpl (hz s (by simp))
          split at h
          · simp at h
          · rename_i ps' fin' hr
            simp only [Except.ok.injEq, Prod.mk.injEq] at h
            obtain ⟨rfl, rfl⟩ := h
            obtain ⟨i1, i2, i3, i4, i5, i6⟩ := ih st2 ps' hr
            refine ⟨by omega, by omega, ?_, ?_, ?_, ?_⟩
            · rw [List.filter_cons, if_pos hf, List.map_cons, i3, c1]
            · intro q hq
              rcases List.mem_cons.mp hq with rfl | hq
              · refine ⟨by omega, by omega, c4, fun hn => ?_⟩
                rw [c1] at hn ⊢
                have := c7 hn
                omega
              · obtain ⟨j1, j2, j3, j4⟩ := i4 q hq
                exact ⟨by omega, by omega, j3, j4⟩
            · rw [List.pairwise_cons]
              refine ⟨?_, i5⟩
              intro q hq hn
              rw [c1] at hn ⊢
              have := c7 hn
              obtain ⟨j1, j2, _⟩ := i4 q hq
              omega
            · intro he i q hq hno
              have e1 := b3 hp he
              obtain ⟨k1, k2⟩ := c8 base (hfit s (by simp)) e1
              rcases i with _ | i
              · simp only [List.getElem?_cons_zero, Option.some.injEq] at hq
                subst hq
                exact k1
              · have hnz := hno 0 p (by omega) (by simp)
                rw [c1] at hnz
                exact i6 (k2 hnz) i q (by simpa using hq) fun j r hj hr =>
                  hno (j + 1) r (by omega) (by simpa using hr)

end Nature.Layout
