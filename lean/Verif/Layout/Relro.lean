import Verif.Layout.Place

/-!
# The region that becomes read-only
-/

namespace Nature.Layout

open Spec (Tbss Aligned Apart Sized Fits ReadOnlyLater)

theorem family_iff (name base : String) : family name base = true ↔
    name = base ∨ ∃ x, name.toList = base.toList ++ ['.'] ++ x := by
  unfold family
  simp only [Bool.or_eq_true, decide_eq_true_eq, List.isPrefixOf_iff_prefix]
  constructor
  · rintro (h | ⟨x, h⟩)
    · exact Or.inl h
    · exact Or.inr ⟨x, h.symm⟩
  · rintro (h | ⟨x, h⟩)
    · exact Or.inl h
    · exact Or.inr ⟨x, h.symm⟩

theorem protected_iff (s : Sec) : protectedSec s = true ↔ ReadOnlyLater s := by
  unfold protectedSec ReadOnlyLater
  have e1 : (".data.rel.ro.").toList = (".data.rel.ro").toList ++ ['.'] := by decide
  have e2 : (".bss.rel.ro.").toList = (".bss.rel.ro").toList ++ ['.'] := by decide
  rw [e1, e2]
  by_cases h0 : s.size = 0 ∨ s.alloc = false ∨ s.write = false
  · rw [if_pos h0]
    constructor
    · intro h; simp at h
    · rintro ⟨h1, h2, h3, _⟩
      rcases h0 with h | h | h
      · exact absurd h h1
      · rw [h] at h2; simp at h2
      · rw [h] at h3; simp at h3
  · rw [if_neg h0]
    have h1 : s.size ≠ 0 ∧ s.alloc = true ∧ s.write = true := by
      refine ⟨fun h => h0 (Or.inl h), ?_, ?_⟩
      · rcases h : s.alloc with _ | _
        · exact absurd (Or.inr (Or.inl h)) h0
        · rfl
      · rcases h : s.write with _ | _
        · exact absurd (Or.inr (Or.inr h)) h0
        · rfl
    rcases ht : s.tls with _ | _
    · simp only [Bool.false_eq_true, if_false, false_and, true_and, false_or]
      split
      · rename_i hty
        constructor
        · intro _
          refine ⟨h1.1, h1.2.1, h1.2.2, ?_⟩
          rcases hty with h | h | h
          · exact Or.inl h
          · exact Or.inr (Or.inl h)
          · exact Or.inr (Or.inr (Or.inl h))
        · intro _; rfl
      · rename_i hty
        simp only [Bool.or_eq_true, decide_eq_true_eq, family_iff]
        constructor
        · intro h
          refine ⟨h1.1, h1.2.1, h1.2.2, ?_⟩
          rcases h with (((h | h) | (h | h)) | h) | h
          · exact Or.inr (Or.inr (Or.inr (Or.inl h)))
          · exact Or.inr (Or.inr (Or.inr (Or.inr (Or.inl h))))
          · exact Or.inr (Or.inr (Or.inr (Or.inr (Or.inr (Or.inl h)))))
          · exact Or.inr (Or.inr (Or.inr (Or.inr (Or.inr (Or.inr (Or.inl h))))))
          · exact Or.inr (Or.inr (Or.inr (Or.inr (Or.inr (Or.inr (Or.inr (Or.inl h)))))))
          · exact Or.inr (Or.inr (Or.inr (Or.inr (Or.inr (Or.inr (Or.inr (Or.inr h)))))))
        · rintro ⟨_, _, _, h⟩
          rcases h with h | h | h | h | h | h | h | h | h
          · exact absurd (Or.inl h) hty
          · exact absurd (Or.inr (Or.inl h)) hty
          · exact absurd (Or.inr (Or.inr h)) hty
          · exact Or.inl (Or.inl (Or.inl (Or.inl h)))
          · exact Or.inl (Or.inl (Or.inl (Or.inr h)))
          · exact Or.inl (Or.inl (Or.inr (Or.inl h)))
          · exact Or.inl (Or.inl (Or.inr (Or.inr h)))
          · exact Or.inl (Or.inr h)
          · exact Or.inr h
    · simp [h1]

theorem protected_not_tbss (s : Sec) (h : protectedSec s = true) : ¬ Tbss s := by
  obtain ⟨_, _, _, h⟩ := (protected_iff s).mp h
  rintro ⟨h1, h2⟩
  rcases h with ⟨_, h⟩ | ⟨h, _⟩
  · exact h h2
  · rw [h1] at h; simp at h

theorem transparent_tbss (s : Sec) (h : transparentSec s = true) : Tbss s := by
  simp only [transparentSec, Bool.and_eq_true, decide_eq_true_eq] at h
  exact ⟨h.2, h.1.1.1.2⟩

/-- The end of the region so far. -/
def lim (plan : Plan) : Nat := if plan.finalized then plan.protectionEnd else plan.addressEnd

/-- What holds between sections. -/
structure Inv (page : Nat) (st : State) : Prop where
  region : st.plan.present = true → st.plan.address ≤ lim st.plan ∧ lim st.plan ≤ st.addr
  done : st.plan.finalized = true → st.plan.present = true ∧ st.plan.protectionEnd % page = 0

/-- A section that programs write. -/
def Loose (s : Sec) : Prop := protectedSec s = false ∧ s.size ≠ 0 ∧ ¬ Tbss s

theorem addSection_spec (plan plan' : Plan) (p : Placed) (h : plan.addSection p = .ok plan') :
    plan.finalized = false ∧ plan'.finalized = false ∧ plan'.present = true ∧
      plan'.addressEnd = p.addr + p.sec.size ∧
      (plan.present = true → plan'.address = plan.address ∧ plan.addressEnd ≤ p.addr) ∧
      (plan.present = false → plan'.address = p.addr) := by
  unfold Plan.addSection at h
  split at h
  · simp at h
  · rename_i hf
    have hf : plan.finalized = false := by simpa using hf
    split at h
    · simp at h
    · split at h
      · simp at h
      · split at h
        · rename_i fe ae h1 h2
          have h2 := add_some _ _ _ h2
          split at h
          · rename_i hp
            have hp : plan.present = false := by simpa using hp
            obtain rfl := Except.ok.inj h
            exact ⟨hf, hf, rfl, h2, fun h => (by rw [hp] at h; simp at h), fun _ => rfl⟩
          · rename_i hp
            have hp : plan.present = true := by simpa using hp
            split at h
            · simp at h
            · obtain rfl := Except.ok.inj h
              exact ⟨hf, hf, hp, h2, fun _ => ⟨rfl, by omega⟩,
                fun h => (by rw [hp] at h; simp at h)⟩
        · simp at h

/-- One section. -/
theorem step_spec (page : Nat) (st st1 st2 : State) (s : Sec) (p : Placed) (hz : Sized s)
    (hb : before page st s = .ok st1) (hp : place st1 s = .ok (p, st2)) (hi : Inv page st) :
    Inv page st2 ∧
      (st.plan.present = true → st2.plan.present = true ∧ st2.plan.address = st.plan.address ∧
        lim st.plan ≤ lim st2.plan) ∧
      (st.plan.finalized = true → st2.plan = st.plan) ∧
      (st.plan.present = false → st2.plan.present = true → st.addr ≤ st2.plan.address) ∧
      (protectedSec s = true → st2.plan.present = true ∧ st2.plan.address ≤ p.addr ∧
        p.addr + s.size ≤ lim st2.plan) ∧
      (Loose s → st.plan.present = true → st2.plan.finalized = true ∧ st2.plan.protectionEnd ≤ p.addr) ∧
      (Loose s → st.plan.present = false → st2.plan.present = false) := by
  obtain ⟨c1, c2, _, _, c5, _, c7, _, c9, c10⟩ := place_spec st1 st2 s p hp hz
  obtain ⟨b1, _, _⟩ := before_cursors page 0 st st1 s hb
  rcases hps : protectedSec s with _ | _
  · -- not protected
    have e2 : st2.plan = st1.plan := c10 (Or.inl hps)
    rcases before_spec page st st1 s hb with ⟨rfl, _, q2⟩ | ⟨_, q1, q2⟩
    · refine ⟨⟨?_, ?_⟩, ?_, ?_, ?_, ?_, ?_, ?_⟩
      · rw [e2]; intro h; have := hi.region h; omega
      · rw [e2]; exact hi.done
      · rw [e2]; intro h; exact ⟨h, rfl, Nat.le_refl _⟩
      · intro _; exact e2
      · rw [e2]; intro h h'; rw [h] at h'; simp at h'
      · intro h; simp at h
      · rintro ⟨_, l2, l3⟩ h
        have ht : transparentSec s = false := by
          rcases ht : transparentSec s with _ | _
          · rfl
          · exact absurd (transparent_tbss s ht) l3
        have hfin := q2 hps ht l2 h
        rw [e2]
        refine ⟨hfin, ?_⟩
        have := (hi.region h).2
        rw [lim, if_pos hfin] at this
        omega
      · rw [e2]; intro _ h; exact h
    · obtain ⟨f1, f2, f3, f4, f5, f6, f7⟩ := finalize_spec _ _ _ _ _ _ _ q2
      have hmod : st1.addr % page = 0 := by
        rcases (alignUp_some _ _ _ f5).2.1 with h | h
        · exact absurd h f7
        · exact h
      have l1 : lim st1.plan = st1.addr := by simp [lim, f2]
      have l0 : lim st.plan = st.plan.addressEnd := by simp [lim, f1]
      have a1 : st1.plan.address = st.plan.address := by rw [f2]
      have a2 : st1.plan.finalized = true := by rw [f2]
      have a3 : st1.plan.present = true := by rw [f2]; exact q1
      have a4 : st1.plan.protectionEnd = st1.addr := by rw [f2]
      refine ⟨⟨?_, ?_⟩, ?_, ?_, ?_, ?_, ?_, ?_⟩
      · rw [e2]; intro _; rw [l1, a1]; omega
      · rw [e2, a4]; intro _; exact ⟨a3, hmod⟩
      · rw [e2]; intro _; exact ⟨a3, a1, by rw [l0, l1]; omega⟩
      · intro h; rw [f1] at h; simp at h
      · intro h; rw [q1] at h; simp at h
      · intro h; simp at h
      · intro _ _; rw [e2, a4]; exact ⟨a2, c2⟩
      · intro _ h; rw [q1] at h; simp at h
  · -- protected
    have hnt := protected_not_tbss s hps
    have hadd := c9 hps hnt
    obtain ⟨c7a, _⟩ := c7 hnt
    obtain ⟨d1, d2, d3, d4, d5, d6⟩ := addSection_spec _ _ _ hadd
    rw [c1] at d4
    rcases before_spec page st st1 s hb with ⟨rfl, _, _⟩ | ⟨q0, _, _⟩
    · have l2 : lim st2.plan = p.addr + s.size := by simp [lim, d2, d4]
      have l0 : lim st1.plan = st1.plan.addressEnd := by simp [lim, d1]
      have haddr : st2.plan.address ≤ p.addr := by
        rcases hpr : st1.plan.present with _ | _
        · rw [d6 hpr]; exact Nat.le_refl _
        · rw [(d5 hpr).1]
          have := hi.region hpr
          omega
      refine ⟨⟨?_, ?_⟩, ?_, ?_, ?_, ?_, ?_, ?_⟩
      · intro _; rw [l2]; omega
      · intro h; rw [d2] at h; simp at h
      · intro h
        obtain ⟨g1, g2⟩ := d5 h
        exact ⟨d3, g1, by rw [l0, l2]; omega⟩
      · intro h; rw [d1] at h; simp at h
      · intro h _; rw [d6 h]; omega
      · intro _; exact ⟨d3, haddr, by rw [l2]; exact Nat.le_refl _⟩
      · intro h; have := h.1; rw [hps] at this; simp at this
      · intro h; have := h.1; rw [hps] at this; simp at this
    · rw [hps] at q0; simp at q0

theorem relro_spec (page : Nat) (ss : List Sec) (hz : ∀ s ∈ ss, Sized s) (st fin : State)
    (ps : List Placed) (h : layRw page ss st = .ok (ps, fin)) (hi : Inv page st) :
    Inv page fin ∧
      (st.plan.present = true → fin.plan.present = true ∧ fin.plan.address = st.plan.address ∧
        lim st.plan ≤ lim fin.plan) ∧
      (st.plan.finalized = true → fin.plan = st.plan) ∧
      (st.plan.present = false → fin.plan.present = true → st.addr ≤ fin.plan.address) ∧
      (∀ p ∈ ps, protectedSec p.sec = true → fin.plan.present = true ∧ fin.plan.address ≤ p.addr ∧
        p.addr + p.sec.size ≤ lim fin.plan) ∧
      (∀ p ∈ ps, Loose p.sec → st.plan.present = true →
        fin.plan.finalized = true ∧ fin.plan.protectionEnd ≤ p.addr) ∧
      (∀ p ∈ ps, Loose p.sec → st.plan.present = false → fin.plan.present = true →
        p.addr + p.sec.size ≤ fin.plan.address ∨
          (fin.plan.finalized = true ∧ fin.plan.protectionEnd ≤ p.addr)) ∧
      ∀ (i j : Nat) (p q : Placed), ps[i]? = some p → ps[j]? = some q → j < i → Loose p.sec →
        protectedSec q.sec = true → fin.plan.finalized = true ∧ fin.plan.protectionEnd ≤ p.addr := by
  induction ss generalizing st ps with
  | nil =>
    simp only [layRw, Except.ok.injEq, Prod.mk.injEq] at h
    obtain ⟨rfl, rfl⟩ := h
    refine ⟨hi, fun h => ⟨h, rfl, Nat.le_refl _⟩, fun _ => rfl, ?_, by simp, by simp, by simp, by simp⟩
    intro h h'; rw [h] at h'; simp at h'
  | cons s ss ih =>
    have ih := fun st ps h hi => ih (fun x hx => hz x (by simp [hx])) st ps h hi
    rw [layRw] at h
    split at h
    · exact ih st ps h hi
    · split at h
      · simp at h
      · rename_i st1 hb
        split at h
        · simp at h
        · rename_i p st2 hpl
          have hsz := hz s (by simp)
          obtain ⟨c1, c2, _, _, c5, _, c7, _⟩ := place_spec st1 st2 s p hpl hsz
          obtain ⟨b1, _, _⟩ := before_cursors page 0 st st1 s hb
          obtain ⟨s1, s2, s3, s4, s5, s6, s7⟩ := step_spec page st st1 st2 s p hsz hb hpl hi
          split at h
          · simp at h
          · rename_i ps' fin' hr
            simp only [Except.ok.injEq, Prod.mk.injEq] at h
            obtain ⟨rfl, rfl⟩ := h
            obtain ⟨i1, i2, i3, i4, i5, i6, i7, i8⟩ := ih st2 ps' hr s1
            refine ⟨i1, ?_, ?_, ?_, ?_, ?_, ?_, ?_⟩
            · intro h
              obtain ⟨a1, a2, a3⟩ := s2 h
              obtain ⟨e1, e2, e3⟩ := i2 a1
              exact ⟨e1, by rw [e2, a2], by omega⟩
            · intro h
              have e := s3 h
              rw [i3 (by rw [e]; exact h), e]
            · intro h h'
              rcases hpr : st2.plan.present with _ | _
              · have := i4 hpr h'
                omega
              · rw [(i2 hpr).2.1]
                exact s4 h hpr
            · intro q hq hprot
              rcases List.mem_cons.mp hq with rfl | hq
              · rw [c1] at hprot ⊢
                obtain ⟨a1, a2, a3⟩ := s5 hprot
                obtain ⟨e1, e2, e3⟩ := i2 a1
                exact ⟨e1, by rw [e2]; exact a2, by omega⟩
              · exact i5 q hq hprot
            · intro q hq hl h
              rcases List.mem_cons.mp hq with rfl | hq
              · rw [c1] at hl
                obtain ⟨a1, a2⟩ := s6 hl h
                rw [i3 a1]
                exact ⟨a1, a2⟩
              · exact i6 q hq hl (s2 h).1
            · intro q hq hl h h'
              rcases List.mem_cons.mp hq with rfl | hq
              · rw [c1] at hl ⊢
                have := i4 (s7 hl h) h'
                have := (c7 hl.2.2).1
                left; omega
              · rcases hpr : st2.plan.present with _ | _
                · exact i7 q hq hl hpr h'
                · exact Or.inr (i6 q hq hl hpr)
            · intro i j a b ha hb' hij hl hprot
              rcases i with _ | i
              · omega
              · simp only [List.getElem?_cons_succ] at ha
                rcases j with _ | j
                · simp only [List.getElem?_cons_zero, Option.some.injEq] at hb'
                  subst hb'
                  rw [c1] at hprot
                  exact i6 a (List.mem_of_getElem? ha) hl (s5 hprot).1
                · simp only [List.getElem?_cons_succ] at hb'
                  exact i8 i j a b ha hb' (by omega) hl hprot

end Nature.Layout
