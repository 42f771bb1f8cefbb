/-
A general way of showing that two programs do the same.
-/
import Verif.Cfg.Spec
namespace Nature.Cfg

/-- `r'` does with the jumps `J'` what `r` does with `J`, given that label `l` of the one corresponds to `l'` of the other
whenever `T l l'`. -/
inductive Rep (J J' : Jumps) (T : Label → Label → Prop) : List Ins → List Ins → Prop
  | nil : Rep J J' T [] []
  | op {c : Nat} {r r' : List Ins} : Rep J J' T r r' → Rep J J' T (.op c :: r) (.op c :: r')
  | br {c : Nat} {l l' : Label} {r r' : List Ins} : T l l' → Rep J J' T r r' → Rep J J' T (.br c l :: r) (.br c l' :: r')
  | bal {l l' : Label} {r r' : List Ins} : T l l' → Rep J J' T (.bal l :: r) (.bal l' :: r')
  | labelL {l : Label} {r r' : List Ins} : Rep J J' T r r' → Rep J J' T (.label l :: r) r'
  | balL {l : Label} {r s r' : List Ins} : J l = some s → Rep J J' T s r' → Rep J J' T (.bal l :: r) r'
  | brL {c : Nat} {l : Label} {r r' : List Ins} : J l = some r → Rep J J' T r r' → Rep J J' T (.br c l :: r) r'
  | labelR {l : Label} {r r' : List Ins} : Rep J J' T r r' → Rep J J' T r (.label l :: r')
  | balR {l : Label} {r r' s : List Ins} : J' l = some s → Rep J J' T r s → Rep J J' T r (.bal l :: r')
  | brR {c : Nat} {l : Label} {r r' : List Ins} : J' l = some r' → Rep J J' T r r' → Rep J J' T r (.br c l :: r')

/-- Corresponding labels lead to corresponding code. -/
def Table (J J' : Jumps) (T : Label → Label → Prop) : Prop :=
  ∀ l l', T l l' → ∃ s s', J l = some s ∧ J' l' = some s' ∧ Rep J J' T s s'

theorem Rep.flip {J J' : Jumps} {T : Nat → Nat → Prop} {r r' : List Ins} (h : Rep J J' T r r') :
    Rep J' J (fun a b => T b a) r' r := by
  induction h with
  | nil => exact .nil
  | op _ ih => exact .op ih
  | br h _ ih => exact .br h ih
  | bal h => exact .bal h
  | labelL _ ih => exact .labelR ih
  | balL h _ ih => exact .balR h ih
  | brL h _ ih => exact .brR h ih
  | labelR _ ih => exact .labelL ih
  | balR h _ ih => exact .balL h ih
  | brR h _ ih => exact .brL h ih

theorem Table.flip {J J' : Jumps} {T : Nat → Nat → Prop} (h : Table J J' T) : Table J' J (fun a b => T b a) := by
  intro l l' hl
  obtain ⟨s, s', h1, h2, h3⟩ := h l' l hl
  exact ⟨s', s, h2, h1, h3.flip⟩

theorem Steps.trans {W : Type} {J : Jumps} {S : Sem W} {x y z : List Ins × W} (h : Steps J S x y) (h' : Steps J S y z) :
    Steps J S x z := by
  induction h with
  | refl _ => exact h'
  | step h _ ih => exact .step h (ih h')

theorem rep_step {W : Type} {J J' : Jumps} {T : Nat → Nat → Prop} (hT : Table J J' T) (S : Sem W) {r r' : List Ins}
    (h : Rep J J' T r r') : ∀ (w : W) (r1 : List Ins) (w1 : W), step J S (r, w) = some (r1, w1) →
    ∃ r1', Steps J' S (r', w) (r1', w1) ∧ Rep J J' T r1 r1' := by
  induction h with
  | nil => intro w r1 w1 h; simp [step] at h
  | @op c r r' h ih =>
    intro w r1 w1 hs
    simp only [step, Option.some.injEq, Prod.mk.injEq] at hs
    obtain ⟨rfl, rfl⟩ := hs
    exact ⟨r', .step rfl (.refl _), h⟩
  | @br c l l' r r' ht h ih =>
    intro w r1 w1 hs
    obtain ⟨s, s', j1, j2, j3⟩ := hT l l' ht
    simp only [step] at hs
    by_cases hc : S.cond c w
    · rw [if_pos hc, j1] at hs
      simp only [Option.map_some, Option.some.injEq, Prod.mk.injEq] at hs
      obtain ⟨rfl, rfl⟩ := hs
      exact ⟨s', .step (by simp [step, hc, j2]) (.refl _), j3⟩
    · rw [if_neg hc] at hs
      simp only [Option.some.injEq, Prod.mk.injEq] at hs
      obtain ⟨rfl, rfl⟩ := hs
      exact ⟨r', .step (by simp [step, hc]) (.refl _), h⟩
  | @bal l l' r r' ht =>
    intro w r1 w1 hs
    obtain ⟨s, s', j1, j2, j3⟩ := hT l l' ht
    simp only [step, j1, Option.map_some, Option.some.injEq, Prod.mk.injEq] at hs
    obtain ⟨rfl, rfl⟩ := hs
    exact ⟨s', .step (by simp [step, j2]) (.refl _), j3⟩
  | @labelL l r r' h ih =>
    intro w r1 w1 hs
    simp only [step, Option.some.injEq, Prod.mk.injEq] at hs
    obtain ⟨rfl, rfl⟩ := hs
    exact ⟨r', .refl _, h⟩
  | @balL l r s r' hj h ih =>
    intro w r1 w1 hs
    simp only [step, hj, Option.map_some, Option.some.injEq, Prod.mk.injEq] at hs
    obtain ⟨rfl, rfl⟩ := hs
    exact ⟨r', .refl _, h⟩
  | @brL c l r r' hj h ih =>
    intro w r1 w1 hs
    simp only [step, hj, Option.map_some] at hs
    split at hs <;> simp only [Option.some.injEq, Prod.mk.injEq] at hs <;> obtain ⟨rfl, rfl⟩ := hs <;> exact ⟨r', .refl _, h⟩
  | labelR _ ih =>
    intro w r1 w1 hs
    obtain ⟨r1', h1, h2⟩ := ih w r1 w1 hs
    exact ⟨r1', .step rfl h1, h2⟩
  | balR hj _ ih =>
    intro w r1 w1 hs
    obtain ⟨r1', h1, h2⟩ := ih w r1 w1 hs
    exact ⟨r1', .step (by simp [step, hj]) h1, h2⟩
  | brR hj _ ih =>
    intro w r1 w1 hs
    obtain ⟨r1', h1, h2⟩ := ih w r1 w1 hs
    exact ⟨r1', .step (by simp [step, hj]) h1, h2⟩

theorem rep_steps {W : Type} {J J' : Jumps} {T : Nat → Nat → Prop} (hT : Table J J' T) (S : Sem W) {x y : List Ins × W}
    (hs : Steps J S x y) : ∀ r', Rep J J' T x.1 r' → ∃ r1', Steps J' S (r', x.2) (r1', y.2) ∧ Rep J J' T y.1 r1' := by
  induction hs with
  | refl x => intro r' h; exact ⟨r', .refl _, h⟩
  | @step x y z h _ ih =>
    intro r' hr
    obtain ⟨r1', h1, h2⟩ := rep_step hT S hr x.2 y.1 y.2 h
    obtain ⟨r2', h3, h4⟩ := ih r1' h2
    exact ⟨r2', h1.trans h3, h4⟩

theorem rep_end {W : Type} {J J' : Jumps} {T : Nat → Nat → Prop} (S : Sem W) {r r' : List Ins} (h : Rep J J' T r r') (hr : r = [])
    (w : W) : Steps J' S (r', w) ([], w) := by
  induction h with
  | nil => exact .refl _
  | op _ _ => simp at hr
  | br _ _ _ => simp at hr
  | bal _ => simp at hr
  | labelL _ _ => simp at hr
  | balL _ _ _ => simp at hr
  | brL _ _ _ => simp at hr
  | labelR _ ih => exact .step rfl (ih hr)
  | balR hj _ ih => exact .step (by simp [step, hj]) (ih hr)
  | brR hj _ ih => exact .step (by simp [step, hj]) (ih hr)

/-- Both programs do the same. -/
def Same (J : Jumps) (r : List Ins) (J' : Jumps) (r' : List Ins) : Prop :=
  ∀ (W : Type) (S : Sem W) (w w' : W), (Visits J S r w w' ↔ Visits J' S r' w w') ∧ (Ends J S r w w' ↔ Ends J' S r' w w')

theorem Same.trans {J J' J'' : Jumps} {r r' r'' : List Ins} (h : Same J r J' r') (h' : Same J' r' J'' r'') :
    Same J r J'' r'' := fun W S w w' =>
  ⟨(h W S w w').1.trans (h' W S w w').1, (h W S w w').2.trans (h' W S w w').2⟩

theorem same_of {J J' : Jumps} {T : Nat → Nat → Prop} (hT : Table J J' T) {r r' : List Ins} (h : Rep J J' T r r') :
    Same J r J' r' := by
  have key : ∀ {J J' : Jumps} {T : Nat → Nat → Prop}, Table J J' T → ∀ {r r' : List Ins}, Rep J J' T r r' → ∀ (W : Type)
      (S : Sem W) (w w' : W), (Visits J S r w w' → Visits J' S r' w w') ∧ (Ends J S r w w' → Ends J' S r' w w') := by
    intro J J' T hT r r' h W S w w'
    refine ⟨fun ⟨r1, hs⟩ => ?_, fun hs => ?_⟩
    · obtain ⟨r1', h1, _⟩ := rep_steps hT S hs r' h
      exact ⟨r1', h1⟩
    · obtain ⟨r1', h1, h2⟩ := rep_steps hT S hs r' h
      exact h1.trans (rep_end S h2 rfl _)
  intro W S w w'
  obtain ⟨a1, a2⟩ := key hT h W S w w'
  obtain ⟨b1, b2⟩ := key hT.flip h.flip W S w w'
  exact ⟨⟨a1, b1⟩, ⟨a2, b2⟩⟩

/-- Code is its own representation if its labels correspond to themselves. -/
theorem rep_refl {J J' : Jumps} {T : Nat → Nat → Prop} : ∀ {r : List Ins},
    (∀ i ∈ r, match i with | .bal l => T l l | .br _ l => T l l | _ => True) → Rep J J' T r r := by
  intro r
  induction r with
  | nil => intro _; exact .nil
  | cons i r ih =>
    intro h
    rw [List.forall_mem_cons] at h
    cases i with
    | label l => exact .labelL (.labelR (ih h.2))
    | bal l => exact .bal h.1
    | br c l => exact .br h.1 (ih h.2)
    | op c => exact .op (ih h.2)

end Nature.Cfg
