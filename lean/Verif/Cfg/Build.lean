/-
From code to blocks.
-/
import Verif.Cfg.SplitAll
namespace Nature.Cfg

/-! ### The equations -/

theorem build_nil (t : Nat) (dn : List (Nat × List Ins)) (cur : Nat × List Ins) :
    build .plain t dn cur [] = some (dn ++ [cur], t) := by rw [build]

theorem build_nil' {last : Last} (h : last ≠ .plain) (t : Nat) (dn : List (Nat × List Ins)) (cur : Nat × List Ins) :
    build last t dn cur [] = none := by cases last <;> simp [build] at h ⊢

theorem build_label (last : Last) (t : Nat) (dn : List (Nat × List Ins)) (cur : Nat × List Ins) (l : Nat) (r : List Ins) :
    build last t dn cur (.label l :: r) = build .plain t (dn ++ [(cur.1, finish l cur.2)]) (l, [.label l]) r := by
  cases last <;> rw [build] <;> simp

theorem build_plain (t : Nat) (dn : List (Nat × List Ins)) (cur : Nat × List Ins) {i : Ins} (hi : i.isLabel = false) (r : List Ins) :
    build .plain t dn cur (i :: r) = build i.last t dn (cur.1, cur.2 ++ [i]) r := by
  cases i <;> first | rw [build]; simp | simp [Ins.isLabel] at hi

theorem build_br (t : Nat) (dn : List (Nat × List Ins)) (cur : Nat × List Ins) {i : Ins} (hi : i.isLabel = false) (r : List Ins) :
    build .br t dn cur (i :: r) = build i.last (t + 1) (dn ++ [(cur.1, finish t cur.2)]) (t, [.label t, i]) r := by
  cases i <;> first | rw [build]; simp | simp [Ins.isLabel] at hi

theorem build_bal (t : Nat) (dn : List (Nat × List Ins)) (cur : Nat × List Ins) {i : Ins} (hi : i.isLabel = false) (r : List Ins) :
    build .bal t dn cur (i :: r) = if i.branch then build .bal t dn cur r
      else build i.last (t + 1) (dn ++ [(cur.1, finish t cur.2)]) (t, [.label t, i]) r := by
  cases i <;> first | rw [build]; simp | simp [Ins.isLabel] at hi

/-! ### The current block -/

/-- The form of the current block. -/
inductive Cur : Last → Nat × List Ins → Prop
  | plain {n : Label} {mid : List Ins} : (∀ i ∈ mid, ∃ c, i = .op c) → Cur .plain (n, .label n :: mid)
  | br {n c l : Nat} {mid : List Ins} : (∀ i ∈ mid, ∃ c, i = .op c) → Cur .br (n, .label n :: (mid ++ [.br c l]))
  | bal {n l : Nat} {mid : List Ins} : (∀ i ∈ mid, ∃ c, i = .op c) → Cur .bal (n, .label n :: (mid ++ [.bal l]))

theorem last_mid {n : Nat} {mid : List Ins} (h : ∀ i ∈ mid, ∃ c, i = Ins.op c) :
    (∃ l, (Ins.label n :: mid).getLast? = some (.label l)) ∨ ∃ c, (Ins.label n :: mid).getLast? = some (.op c) := by
  rcases List.eq_nil_or_concat mid with rfl | ⟨p, i, rfl⟩
  · exact .inl ⟨n, rfl⟩
  · obtain ⟨c, rfl⟩ := h i (by simp)
    refine .inr ⟨c, ?_⟩
    rw [List.concat_eq_append, ← List.cons_append, List.getLast?_concat]

theorem finish_plain {n : Nat} {mid : List Ins} (h : ∀ i ∈ mid, ∃ c, i = Ins.op c) (l : Nat) :
    finish l (.label n :: mid) = .label n :: (mid ++ [.bal l]) := by
  unfold finish
  rcases last_mid (n := n) h with ⟨x, e⟩ | ⟨x, e⟩ <;> simp only [e] <;> rfl

theorem finish_br_ne {n c l' : Nat} {mid : List Ins} {l : Nat} (hl : l' ≠ l) :
    finish l (.label n :: (mid ++ [.br c l'])) = .label n :: (mid ++ [.br c l', .bal l]) := by
  unfold finish
  have e : (Ins.label n :: (mid ++ [.br c l'])).getLast? = some (.br c l') := by rw [← List.cons_append, List.getLast?_concat]
  simp only [e, hl, if_false]
  simp

theorem finish_br_eq {n c : Nat} {mid : List Ins} (h : ∀ i ∈ mid, ∃ c, i = Ins.op c) {l : Nat} :
    finish l (.label n :: (mid ++ [.br c l])) = .label n :: (mid ++ [.bal l]) := by
  unfold finish
  have e : (Ins.label n :: (mid ++ [.br c l])).getLast? = some (.br c l) := by rw [← List.cons_append, List.getLast?_concat]
  have e' : (Ins.label n :: (mid ++ [.br c l])).dropLast = .label n :: mid := by
    rw [← List.cons_append, List.dropLast_concat]
  simp only [e, if_true, e']
  rcases last_mid (n := n) h with ⟨x, e⟩ | ⟨x, e⟩ <;> simp only [e] <;> rfl

theorem finish_bal {n l' : Nat} {mid : List Ins} {l : Nat} :
    finish l (.label n :: (mid ++ [.bal l'])) = .label n :: (mid ++ [.bal l']) := by
  unfold finish
  have e : (Ins.label n :: (mid ++ [.bal l'])).getLast? = some (.bal l') := by rw [← List.cons_append, List.getLast?_concat]
  simp only [e]

theorem targets_mid {n : Nat} {mid : List Ins} (h : ∀ i ∈ mid, ∃ c, i = Ins.op c) : targets (.label n :: mid) = [] := by
  unfold targets
  rcases List.eq_nil_or_concat mid with rfl | ⟨p, i, rfl⟩
  · rfl
  · obtain ⟨c, rfl⟩ := h i (by simp)
    simp

theorem targets_bal {n : Nat} {mid : List Ins} (h : ∀ i ∈ mid, ∃ c, i = Ins.op c) (l : Nat) :
    targets (.label n :: (mid ++ [.bal l])) = [l] := by
  unfold targets
  rcases List.eq_nil_or_concat mid with rfl | ⟨p, i, rfl⟩
  · rfl
  · obtain ⟨c, rfl⟩ := h i (by simp)
    simp

theorem targets_br {n : Nat} {mid : List Ins} (c l l' : Nat) : targets (.label n :: (mid ++ [.br c l', .bal l])) = [l, l'] := by
  unfold targets
  simp

/-- The next state after an operation that is not a label. -/
theorem Cur.push {n : Nat} {mid : List Ins} (h : ∀ i ∈ mid, ∃ c, i = Ins.op c) {i : Ins} (hi : i.isLabel = false) :
    Cur i.last (n, .label n :: (mid ++ [i])) := by
  cases i with
  | label l => simp [Ins.isLabel] at hi
  | bal l => exact .bal h
  | br c l => exact .br h
  | op c =>
    refine .plain ?_
    intro i hi
    rw [List.mem_append, List.mem_singleton] at hi
    rcases hi with hi | rfl
    · exact h i hi
    · exact ⟨c, rfl⟩

/-- The form of a finished block. -/
def Done (p : Nat × List Ins) : Prop := Shape ⟨p.1, p.2, [], targets p.2⟩

theorem Cur.done {n : Nat} {ops : List Ins} (h : Cur .plain (n, ops)) : Done (n, ops) := by
  cases h with
  | plain h => rw [Done]; rw [targets_mid h]; exact .stop h

theorem Cur.finish {last : Last} {n : Nat} {ops : List Ins} (h : Cur last (n, ops)) (l : Nat) : Done (n, finish l ops) ∧
    ∀ x ∈ targets (Cfg.finish l ops), x = l ∨ ∃ i ∈ ops, goes i = some x := by
  cases h with
  | plain h =>
    rw [finish_plain h]
    refine ⟨?_, ?_⟩
    · rw [Done]; rw [targets_bal h]; exact .one h
    · rw [targets_bal h]; simp
  | @br _ c l' mid h =>
    by_cases e : l' = l
    · subst e
      rw [finish_br_eq h]
      refine ⟨?_, ?_⟩
      · rw [Done]; rw [targets_bal h]; exact .one h
      · rw [targets_bal h]; simp
    · rw [finish_br_ne e]
      refine ⟨?_, ?_⟩
      · rw [Done]; rw [targets_br]; exact .two h (Ne.symm e) (.inl rfl)
      · rw [targets_br]
        intro x hx
        simp only [List.mem_cons, List.not_mem_nil, or_false] at hx
        rcases hx with rfl | rfl
        · exact .inl rfl
        · exact .inr ⟨.br c x, by simp, rfl⟩
  | @bal _ l' mid h =>
    rw [finish_bal]
    refine ⟨?_, ?_⟩
    · rw [Done]; rw [targets_bal h]; exact .one h
    · rw [targets_bal h]
      intro x hx
      simp only [List.mem_singleton] at hx
      subst hx
      exact .inr ⟨.bal x, by simp, rfl⟩

/-! ### What is built -/

theorem labels_cons (i : Ins) (r : List Ins) : labels (i :: r) = (match i with | .label l => [l] | _ => []) ++ labels r := by
  cases i <;> rfl

theorem labels_skip {i : Ins} (hi : i.isLabel = false) (r : List Ins) : labels (i :: r) = labels r := by
  cases i <;> first | rfl | simp [Ins.isLabel] at hi

/-- Names, forms and targets. -/
theorem build_shape : ∀ (rest : List Ins) (last : Last) (t : Nat) (dn : List (Nat × List Ins)) (cur : Nat × List Ins)
    (bs : List (Nat × List Ins)) (t' : Nat), Cur last cur → build last t dn cur rest = some (bs, t') → (labels rest).Nodup →
    (∀ l ∈ labels rest, l < t) →
    t ≤ t' ∧ (∃ more, bs.map (·.1) = dn.map (·.1) ++ cur.1 :: more ∧ more.Nodup ∧
      (∀ x ∈ more, x ∈ labels rest ∨ (t ≤ x ∧ x < t')) ∧ ∀ x ∈ labels rest, x ∈ more) ∧
    (∀ p ∈ dn, p ∈ bs) ∧ (∀ p ∈ bs, p ∈ dn ∨ (Done p ∧ ∀ x ∈ targets p.2, (x ∈ bs.map (·.1) ∧ (x ∈ labels rest ∨ t ≤ x)) ∨
      ∃ i, (i ∈ cur.2 ∨ i ∈ rest) ∧ goes i = some x)) := by
  intro rest
  induction rest with
  | nil =>
    intro last t dn cur bs t' hc hb _ _
    by_cases hl : last = .plain
    · subst hl
      rw [build_nil] at hb
      simp only [Option.some.injEq, Prod.mk.injEq] at hb
      obtain ⟨rfl, rfl⟩ := hb
      refine ⟨Nat.le_refl _, ⟨[], by simp, by simp, by simp, by simp [labels]⟩, fun p hp => by simp [hp], ?_⟩
      intro p hp
      rw [List.mem_append, List.mem_singleton] at hp
      refine hp.imp_right ?_
      rintro rfl
      refine ⟨hc.done, ?_⟩
      cases hc with
      | plain h => rw [targets_mid h]; simp
    · rw [build_nil' hl] at hb
      cases hb
  | cons i r ih =>
    intro last t dn cur bs t' hc hb hn hf
    -- a label or a new label
    have start : ∀ (last' : Last) (l t1 : Nat) (ops : List Ins), Cur last' (l, ops) → (∀ x ∈ ops, x = .label l ∨ x = i) →
        build last' t1 (dn ++ [(cur.1, Cfg.finish l cur.2)]) (l, ops) r = some (bs, t') →
        (labels r).Nodup → (∀ x ∈ labels r, x < t1) → t ≤ t1 →
        (∀ x ∈ labels r, x ≠ l) → (l = t ∧ t1 = t + 1 ∧ labels (i :: r) = labels r ∨ i = .label l ∧ t1 = t ∧ l < t) →
        t ≤ t' ∧ (∃ more, bs.map (·.1) = dn.map (·.1) ++ cur.1 :: more ∧ more.Nodup ∧
          (∀ x ∈ more, x ∈ labels (i :: r) ∨ (t ≤ x ∧ x < t')) ∧ ∀ x ∈ labels (i :: r), x ∈ more) ∧
        (∀ p ∈ dn, p ∈ bs) ∧ (∀ p ∈ bs, p ∈ dn ∨ (Done p ∧ ∀ x ∈ targets p.2, (x ∈ bs.map (·.1) ∧ (x ∈ labels (i :: r) ∨ t ≤ x)) ∨
          ∃ j, (j ∈ cur.2 ∨ j ∈ i :: r) ∧ goes j = some x)) := by
      intro last' l t1 ops hc' hops hb' hn' hf' hle hlr hcase
      obtain ⟨a1, ⟨more, b1, b2, b3, b4⟩, a3, a4⟩ := ih last' t1 _ _ bs t' hc' hb' hn' hf'
      have hmem : l ∈ bs.map (·.1) := by rw [b1]; simp
      refine ⟨by omega, ⟨l :: more, by rw [b1]; simp, ?_, ?_, ?_⟩, fun p hp => a3 p (by simp [hp]), ?_⟩
      · rw [List.nodup_cons]
        refine ⟨fun h => ?_, b2⟩
        rcases b3 l h with h | h
        · exact hlr l h rfl
        · rcases hcase with ⟨rfl, h', _⟩ | ⟨_, h', h''⟩ <;> omega
      · intro x hx
        rw [List.mem_cons] at hx
        rcases hx with rfl | hx
        · rcases hcase with ⟨rfl, h', _⟩ | ⟨h', _, _⟩
          · exact .inr ⟨Nat.le_refl _, by omega⟩
          · subst h'; exact .inl (by simp [labels])
        · rcases b3 x hx with h | h
          · refine .inl ?_
            rw [labels_cons]
            exact List.mem_append_right _ h
          · exact .inr ⟨by omega, h.2⟩
      · intro x hx
        rcases hcase with ⟨_, _, e⟩ | ⟨rfl, _, _⟩
        · rw [e] at hx
          exact List.mem_cons_of_mem _ (b4 x hx)
        · rw [labels_cons] at hx
          simp only [List.cons_append, List.nil_append, List.mem_cons] at hx ⊢
          exact hx.imp_right (b4 x)
      · intro p hp
        rcases a4 p hp with h | ⟨h1, h2⟩
        · rw [List.mem_append, List.mem_singleton] at h
          refine h.imp_right ?_
          rintro rfl
          obtain ⟨n, ops0⟩ := cur
          obtain ⟨c1, c2⟩ := hc.finish l
          refine ⟨c1, fun x hx => ?_⟩
          rcases c2 x hx with rfl | ⟨j, hj, e⟩
          · refine .inl ⟨hmem, ?_⟩
            rcases hcase with ⟨e, _, _⟩ | ⟨e, _, _⟩
            · exact .inr (by omega)
            · exact .inl (by rw [e]; simp [labels])
          · exact .inr ⟨j, .inl hj, e⟩
        · refine .inr ⟨h1, fun x hx => (h2 x hx).imp (fun h => ⟨h.1, h.2.imp (fun h => by rw [labels_cons]; exact List.mem_append_right _ h) (fun h => by omega)⟩) ?_⟩
          rintro ⟨j, hj | hj, e⟩
          · rcases hops j hj with rfl | rfl
            · simp [goes] at e
            · exact ⟨j, .inr (by simp), e⟩
          · exact ⟨j, .inr (by simp [hj]), e⟩
    by_cases hi : i.isLabel = false
    · have hlr : labels (i :: r) = labels r := labels_skip hi r
      have hn' := hn
      have hf' := hf
      rw [hlr] at hn' hf'
      have temp : build i.last (t + 1) (dn ++ [(cur.1, Cfg.finish t cur.2)]) (t, [.label t, i]) r = some (bs, t') → _ := fun hb' =>
        start i.last t (t + 1) [.label t, i] (Cur.push (mid := []) (by simp) hi) (by simp) hb' hn'
          (fun x hx => by have := hf' x hx; omega) (by omega) (fun x hx => by have := hf' x hx; omega) (.inl ⟨rfl, rfl, hlr⟩)
      cases last with
      | plain =>
        rw [build_plain _ _ _ hi] at hb
        obtain ⟨n, ops⟩ := cur
        cases hc with
        | @plain _ mid h =>
          obtain ⟨a1, ⟨more, b1, b2, b3, b4⟩, a3, a4⟩ := ih _ _ _ _ _ _ (Cur.push h hi) hb hn' hf'
          rw [hlr]
          refine ⟨a1, ⟨more, b1, b2, b3, b4⟩, a3, fun p hp => (a4 p hp).imp_right ?_⟩
          rintro ⟨h1, h2⟩
          refine ⟨h1, fun x hx => (h2 x hx).imp_right ?_⟩
          rintro ⟨j, hj | hj, e⟩
          · have hj : j ∈ .label n :: mid ∨ j = i := by
              have : j ∈ (.label n :: mid) ++ [i] := hj
              rwa [List.mem_append, List.mem_singleton] at this
            rcases hj with hj | rfl
            · exact ⟨j, .inl hj, e⟩
            · exact ⟨j, .inr (by simp), e⟩
          · exact ⟨j, .inr (by simp [hj]), e⟩
      | br =>
        rw [build_br _ _ _ hi] at hb
        exact temp hb
      | bal =>
        rw [build_bal _ _ _ hi] at hb
        split at hb
        · obtain ⟨a1, ⟨more, b1, b2, b3, b4⟩, a3, a4⟩ := ih _ _ _ _ _ _ hc hb hn' hf'
          rw [hlr]
          refine ⟨a1, ⟨more, b1, b2, b3, b4⟩, a3, fun p hp => (a4 p hp).imp_right ?_⟩
          rintro ⟨h1, h2⟩
          refine ⟨h1, fun x hx => (h2 x hx).imp_right ?_⟩
          rintro ⟨j, hj | hj, e⟩
          · exact ⟨j, .inl hj, e⟩
          · exact ⟨j, .inr (by simp [hj]), e⟩
        · exact temp hb
    · obtain ⟨l, rfl⟩ : ∃ l, i = .label l := by cases i <;> simp [Ins.isLabel] at hi ⊢
      rw [build_label] at hb
      have hlr : labels (.label l :: r) = l :: labels r := rfl
      have hn' := hn
      have hf' := hf
      rw [hlr, List.nodup_cons] at hn'
      rw [hlr, List.forall_mem_cons] at hf'
      exact start .plain l t [.label l] (.plain (mid := []) (by simp)) (by simp) hb hn'.2 hf'.2 (Nat.le_refl _)
        (fun x hx e => hn'.1 (e ▸ hx)) (.inr ⟨rfl, rfl, hf'.1⟩)

/-! ### What the blocks do -/

/-- A jump goes to the block of that name. -/
def blockJumps (bs : List (Nat × List Ins)) : Jumps := fun l => (bs.find? (·.1 == l)).map (·.2)

theorem blockJumps_mem {bs : List (Nat × List Ins)} (hn : (bs.map (·.1)).Nodup) {n : Nat} {ops : List Ins} (h : (n, ops) ∈ bs) :
    blockJumps bs n = some ops := by
  unfold blockJumps
  have : bs.find? (·.1 == n) = some (n, ops) := by
    induction bs with
    | nil => simp at h
    | cons x bs ih =>
      simp only [List.map_cons, List.nodup_cons, List.mem_map, not_exists, not_and] at hn
      rw [List.find?_cons]
      rcases List.mem_cons.mp h with rfl | h'
      · simp
      · have : (x.1 == n) = false := by simpa using fun e => hn.1 _ h' e.symm
        simp only [this, ih hn.2 h']
  rw [this]; rfl

/-- A label occurs once: jumping to it leads to it. -/
theorem codeJumps_suffix : ∀ {code : List Ins} {pre r : List Ins} {l : Nat}, (labels code).Nodup → code = pre ++ .label l :: r →
    codeJumps code l = some (.label l :: r) := by
  intro code
  induction code with
  | nil => intro pre r l _ h; simp at h
  | cons i code ih =>
    intro pre r l hn h
    cases pre with
    | nil =>
      obtain ⟨rfl, rfl⟩ := List.cons.inj h
      simp [codeJumps]
    | cons j pre =>
      obtain ⟨rfl, rfl⟩ := List.cons.inj h
      have hne : i ≠ .label l := by
        rintro rfl
        rw [labels_cons] at hn
        simp [labels, List.filterMap_append] at hn
      rw [codeJumps, if_neg hne]
      refine ih ?_ rfl
      rw [labels_cons] at hn
      exact (List.nodup_append.mp hn).2.1

theorem mem_labels {code : List Ins} {l : Nat} : l ∈ labels code ↔ ∃ pre r, code = pre ++ .label l :: r := by
  constructor
  · intro h
    unfold labels at h
    obtain ⟨i, hi, e⟩ := List.mem_filterMap.mp h
    cases i with
    | label l' =>
      simp only [Option.some.injEq] at e
      subst e
      exact List.append_of_mem hi
    | bal l => simp at e
    | br c l => simp at e
    | op c => simp at e
  · rintro ⟨pre, r, rfl⟩
    simp [labels, List.filterMap_append]

/-- What is known of the current block once all is built. -/
def Goal (code : List Ins) (bs : List (Nat × List Ins)) (R : List Ins → List Ins → Prop) : Last → Nat × List Ins → List Ins → Prop
  | .plain, cur, rest => ∃ tail, (cur.1, cur.2 ++ tail) ∈ bs ∧ R rest tail
  | .br, cur, rest => ∃ pre c l tail, cur.2 = pre ++ [.br c l] ∧ (cur.1, pre ++ tail) ∈ bs ∧ R (.br c l :: rest) tail
  | .bal, cur, _ => (cur.1, cur.2) ∈ bs

theorem build_rep {T0 : Nat} {code : List Ins} (hok : CodeOk T0 code) {bs : List (Nat × List Ins)}
    (hnd : (bs.map (·.1)).Nodup) (hex : ∀ p ∈ bs, ∀ l ∈ targets p.2, l ∈ bs.map (·.1))
    (hold : ∀ l ∈ bs.map (·.1), l < T0 → l ∈ labels code) : ∀ (rest : List Ins) (last : Last) (t : Nat)
    (dn : List (Nat × List Ins)) (cur : Nat × List Ins) (t' : Nat), Cur last cur → build last t dn cur rest = some (bs, t') →
    T0 ≤ t → (∃ pre, code = pre ++ rest) → (∀ i ∈ cur.2, ∀ l, goes i = some l → l < T0) →
    Goal code bs (Rep (codeJumps code) (blockJumps bs) (fun a b => a = b ∧ a ∈ labels code)) last cur rest ∧
    ∀ pre l r, rest = pre ++ .label l :: r → ∃ tail, (l, .label l :: tail) ∈ bs ∧
      Rep (codeJumps code) (blockJumps bs) (fun a b => a = b ∧ a ∈ labels code) r tail := by
  have hdn : ∀ (rest : List Ins) (last : Last) (t : Nat) (dn : List (Nat × List Ins)) (cur : Nat × List Ins) (t' : Nat),
      Cur last cur → build last t dn cur rest = some (bs, t') → T0 ≤ t → (∃ pre, code = pre ++ rest) → ∀ p ∈ dn, p ∈ bs := by
    intro rest last t dn cur t' hc hb ht ⟨pre, e⟩
    have hl : (labels rest).Nodup ∧ ∀ l ∈ labels rest, l < T0 := by
      have h1 := hok.nodup
      have h2 := hok.fresh
      rw [e] at h1 h2
      unfold labels at h1
      rw [List.filterMap_append] at h1
      refine ⟨(List.nodup_append.mp h1).2.1, fun l hl => ?_⟩
      obtain ⟨a, b, rfl⟩ := mem_labels.mp hl
      exact h2 (.label l) (by simp)
    exact (build_shape rest last t dn cur bs t' hc hb hl.1 fun l h => by have := hl.2 l h; omega).2.2.1
  have hlt : ∀ p ∈ bs, ∀ l ∈ targets p.2, l < T0 → l ∈ labels code := fun p hp l hl h => hold l (hex p hp l hl) h
  intro rest
  induction rest with
  | nil =>
    intro last t dn cur t' hc hb _ _ _
    by_cases hl : last = .plain
    · subst hl
      rw [build_nil] at hb
      simp only [Option.some.injEq, Prod.mk.injEq] at hb
      obtain ⟨rfl, rfl⟩ := hb
      exact ⟨⟨[], by simp, .nil⟩, by intro pre l r h; simp at h⟩
    · rw [build_nil' hl] at hb
      cases hb
  | cons i r ih =>
    intro last t dn cur t' hc hb ht ⟨pre0, hcode⟩ hcl
    have hsuf : ∃ pre, code = pre ++ r := ⟨pre0 ++ [i], by rw [hcode]; simp⟩
    have higo : ∀ l, goes i = some l → l < T0 := by
      intro l hl
      have := hok.fresh i (by rw [hcode]; simp)
      cases i <;> simp [goes] at hl <;> subst hl <;> exact this
    -- an operation at the end of the current block
    have conv : ∀ (n : Nat) (ops : List Ins), (∃ mid, ops = .label n :: mid ∧ ∀ i ∈ mid, ∃ c, i = .op c) → i.isLabel = false →
        Goal code bs (Rep (codeJumps code) (blockJumps bs) (fun a b => a = b ∧ a ∈ labels code)) i.last (n, ops ++ [i]) r →
        ∃ tail, (n, ops ++ tail) ∈ bs ∧ Rep (codeJumps code) (blockJumps bs) (fun a b => a = b ∧ a ∈ labels code) (i :: r) tail := by
      rintro n ops ⟨mid, rfl, hm⟩ hi hg
      cases i with
      | label l => simp [Ins.isLabel] at hi
      | op c =>
        obtain ⟨tail, h1, h2⟩ := hg
        exact ⟨.op c :: tail, by simpa using h1, .op h2⟩
      | br c l =>
        obtain ⟨pre, c', l', tail, h1, h2, h3⟩ := hg
        obtain ⟨e1, e2⟩ := List.append_inj' h1 rfl
        simp only [List.cons.injEq, Ins.br.injEq, and_true] at e2
        obtain ⟨rfl, rfl⟩ := e2
        refine ⟨tail, ?_, h3⟩
        dsimp only at h2 e1
        rwa [e1]
      | bal l =>
        have hb : (n, (.label n :: mid) ++ [.bal l]) ∈ bs := hg
        refine ⟨[.bal l], hb, .bal ⟨rfl, ?_⟩⟩
        have htl : targets (n, (Ins.label n :: mid) ++ [.bal l]).2 = [l] := targets_bal hm l
        exact hlt _ hb l (by rw [htl]; simp) (higo l rfl)
    -- falling into the next block
    have fall : ∀ (l : Nat) (r' : List Ins) (tail : List Ins), (l, .label l :: tail) ∈ bs →
        Rep (codeJumps code) (blockJumps bs) (fun a b => a = b ∧ a ∈ labels code) r' tail →
        Rep (codeJumps code) (blockJumps bs) (fun a b => a = b ∧ a ∈ labels code) r' [.bal l] :=
      fun l r' tail h1 h2 => .balR (blockJumps_mem hnd h1) (.labelR h2)
    by_cases hi : i.isLabel = false
    · have hlab : (∀ pre l r', r = pre ++ .label l :: r' → ∃ tail, (l, .label l :: tail) ∈ bs ∧
          Rep (codeJumps code) (blockJumps bs) (fun a b => a = b ∧ a ∈ labels code) r' tail) →
          ∀ pre l r', i :: r = pre ++ .label l :: r' → ∃ tail, (l, .label l :: tail) ∈ bs ∧
          Rep (codeJumps code) (blockJumps bs) (fun a b => a = b ∧ a ∈ labels code) r' tail := by
        intro h pre l r' e
        cases pre with
        | nil =>
          obtain ⟨rfl, rfl⟩ := List.cons.inj e
          simp [Ins.isLabel] at hi
        | cons j pre =>
          obtain ⟨rfl, rfl⟩ := List.cons.inj e
          exact h pre l r' rfl
      have temp : build i.last (t + 1) (dn ++ [(cur.1, Cfg.finish t cur.2)]) (t, [.label t, i]) r = some (bs, t') →
          (cur.1, Cfg.finish t cur.2) ∈ bs ∧
          (∃ tail, (t, .label t :: tail) ∈ bs ∧ Rep (codeJumps code) (blockJumps bs) (fun a b => a = b ∧ a ∈ labels code) (i :: r) tail) ∧
          ∀ pre l r', r = pre ++ .label l :: r' → ∃ tail, (l, .label l :: tail) ∈ bs ∧
          Rep (codeJumps code) (blockJumps bs) (fun a b => a = b ∧ a ∈ labels code) r' tail := by
        intro hb'
        have hc' : Cur i.last (t, [.label t, i]) := Cur.push (mid := []) (by simp) hi
        have hp := hdn _ _ _ _ _ _ hc' hb' (by omega) hsuf _ (List.mem_append_right _ (List.mem_singleton.mpr rfl))
        obtain ⟨a1, a2⟩ := ih _ _ _ _ _ hc' hb' (by omega) hsuf (by
          intro j hj l hl
          simp only [List.mem_cons, List.not_mem_nil, or_false] at hj
          rcases hj with rfl | rfl
          · simp [goes] at hl
          · exact higo l hl)
        exact ⟨hp, conv t [.label t] ⟨[], rfl, by simp⟩ hi a1, a2⟩
      obtain ⟨n, ops⟩ := cur
      cases hc with
      | @plain _ mid h =>
        rw [build_plain _ _ _ hi] at hb
        obtain ⟨a1, a2⟩ := ih _ _ _ _ _ (Cur.push h hi) hb ht hsuf (by
          intro j hj l hl
          have : j ∈ (.label n :: mid) ++ [i] := hj
          rw [List.mem_append, List.mem_singleton] at this
          rcases this with hj | rfl
          · exact hcl j hj l hl
          · exact higo l hl)
        exact ⟨conv n (.label n :: mid) ⟨mid, rfl, h⟩ hi a1, hlab a2⟩
      | @br _ c l mid h =>
        rw [build_br _ _ _ hi] at hb
        obtain ⟨a1, ⟨tail, a2, a3⟩, a4⟩ := temp hb
        have hl : l < T0 := hcl (.br c l) (by simp) l rfl
        have hlt' : l ≠ t := by omega
        rw [finish_br_ne hlt'] at a1
        refine ⟨⟨.label n :: mid, c, l, [.br c l, .bal t], by simp, by simpa using a1, .br ⟨rfl, ?_⟩ (fall t _ tail a2 a3)⟩, hlab a4⟩
        exact hlt _ a1 l (by rw [targets_br]; simp) hl
      | @bal _ l mid h =>
        rw [build_bal _ _ _ hi] at hb
        split at hb
        · obtain ⟨a1, a2⟩ := ih _ _ _ _ _ (Cur.bal h) hb ht hsuf hcl
          exact ⟨a1, hlab a2⟩
        · obtain ⟨a1, _, a4⟩ := temp hb
          rw [finish_bal] at a1
          exact ⟨a1, hlab a4⟩
    · obtain ⟨l, rfl⟩ : ∃ l, i = .label l := by cases i <;> simp [Ins.isLabel] at hi ⊢
      rw [build_label] at hb
      have hc' : Cur .plain (l, [.label l]) := .plain (mid := []) (by simp)
      have hp := hdn _ _ _ _ _ _ hc' hb ht hsuf _ (List.mem_append_right _ (List.mem_singleton.mpr rfl))
      obtain ⟨⟨tail, a1, a1'⟩, a2⟩ := ih _ _ _ _ _ hc' hb ht hsuf (by simp [goes])
      have hl0 : l ∈ labels code := mem_labels.mpr ⟨pre0, r, hcode⟩
      have hfall : Rep (codeJumps code) (blockJumps bs) (fun a b => a = b ∧ a ∈ labels code) (.label l :: r) [.bal l] :=
        .labelL (fall l r tail a1 a1')
      refine ⟨?_, ?_⟩
      · obtain ⟨n, ops⟩ := cur
        cases hc with
        | @plain _ mid h =>
          rw [finish_plain h] at hp
          exact ⟨[.bal l], hp, hfall⟩
        | @br _ c l' mid h =>
          by_cases e : l' = l
          · subst e
            rw [finish_br_eq h] at hp
            exact ⟨.label n :: mid, c, l', [.bal l'], by simp, by simpa using hp, .brL (codeJumps_suffix hok.nodup hcode) hfall⟩
          · rw [finish_br_ne e] at hp
            refine ⟨.label n :: mid, c, l', [.br c l', .bal l], by simp, by simpa using hp, .br ⟨rfl, ?_⟩ hfall⟩
            exact hlt _ hp l' (by rw [targets_br]; simp) (hcl (.br c l') (by simp) l' rfl)
        | @bal _ l' mid h =>
          rw [finish_bal] at hp
          exact hp
      · intro pre l' r' e
        cases pre with
        | nil =>
          obtain ⟨e1, rfl⟩ := List.cons.inj e
          obtain rfl := Ins.label.inj e1
          exact ⟨tail, a1, a1'⟩
        | cons j pre =>
          obtain ⟨rfl, rfl⟩ := List.cons.inj e
          exact a2 pre l' r' rfl

/-! ### The graph -/

theorem graphJumps_edges {bs : List (Nat × List Ins)} {g : Graph} (h : edges bs = some g) : graphJumps g = blockJumps bs := by
  unfold edges at h
  split at h
  · obtain rfl := Option.some.inj h
    funext l
    unfold graphJumps blockJumps
    rw [List.find?_map, Option.map_map]
    rfl
  · cases h

/-- The graph is well formed. -/
theorem edges_good {t : Nat} {bs : List (Nat × List Ins)} {g : Graph} (h : edges bs = some g) (hn : (bs.map (·.1)).Nodup)
    (hd : ∀ p ∈ bs, Done p) (hf : ∀ p ∈ bs, p.1 < t) : Good t g := by
  unfold edges at h
  split at h
  · next hex =>
    obtain rfl := Option.some.inj h
    rw [List.all_eq_true] at hex
    have hex2 : ∀ p ∈ bs, ∀ l ∈ targets p.2, ∃ q ∈ bs, q.1 = l := by
      intro p hp l hl
      have := hex l (List.mem_flatMap.mpr ⟨p, hp, hl⟩)
      simpa using this
    refine ⟨?_, ?_, ?_, ?_, ?_, ?_⟩
    · rw [List.map_map]; exact hn
    · intro b hb
      obtain ⟨p, hp, rfl⟩ := List.mem_map.mp hb
      exact (hd p hp).congr _
    · intro b hb s hs
      obtain ⟨p, hp, rfl⟩ := List.mem_map.mp hb
      obtain ⟨q, hq, e⟩ := hex2 p hp s hs
      exact ⟨_, List.mem_map_of_mem hq, e⟩
    · intro b hb x
      obtain ⟨p, hp, rfl⟩ := List.mem_map.mp hb
      simp only [List.mem_flatMap, List.mem_map, List.mem_filter, beq_iff_eq]
      constructor
      · rintro ⟨q, hq, y, ⟨hy, rfl⟩, rfl⟩
        exact ⟨_, ⟨q, hq, rfl⟩, rfl, hy⟩
      · rintro ⟨_, ⟨q, hq, rfl⟩, rfl, h⟩
        exact ⟨q, hq, p.1, ⟨h, rfl⟩, rfl⟩
    · intro b hb
      obtain ⟨p, hp, rfl⟩ := List.mem_map.mp hb
      dsimp only
      generalize p.1 = l
      have hnt : ∀ q ∈ bs, (targets q.2).Nodup := fun q hq => (hd q hq).nsuccs
      clear hex hex2 hd hf hp hb h
      induction bs with
      | nil => simp
      | cons q bs ih =>
        simp only [List.map_cons, List.nodup_cons, List.mem_map, not_exists, not_and] at hn
        rw [List.forall_mem_cons] at hnt
        rw [List.flatMap_cons, List.nodup_append]
        refine ⟨?_, ih hn.2 hnt.2, ?_⟩
        · have h1 : ((targets q.2).filter (· == l)).length ≤ 1 := by
            refine nodup_length (b := [l]) (hnt.1.sublist List.filter_sublist) ?_
            intro x hx
            have := (List.mem_filter.mp hx).2
            simpa using this
          have h2 : (((targets q.2).filter (· == l)).map fun _ => q.1).length ≤ 1 := by simpa using h1
          generalize (((targets q.2).filter (· == l)).map fun _ => q.1) = z at h2
          match z, h2 with
          | [], _ => simp
          | [a], _ => simp
        · intro a ha b hb e
          obtain ⟨_, _, rfl⟩ := List.mem_map.mp ha
          obtain ⟨q', hq', h'⟩ := List.mem_flatMap.mp hb
          obtain ⟨_, _, rfl⟩ := List.mem_map.mp h'
          exact hn.1 q' hq' e.symm
    · intro b hb
      obtain ⟨p, hp, rfl⟩ := List.mem_map.mp hb
      exact hf p hp
  · cases h

/-- From code to graph. -/
theorem build_good {t t' : Nat} {code : List Ins} (hok : CodeOk t code) {bs : List (Nat × List Ins)} {g : Graph}
    (hb : blocks t code = some (bs, t')) (he : edges bs = some g) :
    Good t' g ∧ Same (codeJumps code) code (graphJumps g) (entryOps g) ∧ g.head?.map (·.name) = (labels code).head? ∧
    (∀ b ∈ g, ∀ s ∈ b.succs, (∃ i ∈ code, goes i = some s) ∨ s ∈ (labels code).tail ∨ t ≤ s) := by
  obtain ⟨l, r, rfl⟩ : ∃ l r, code = .label l :: r := by
    cases code with
    | nil => simp [blocks] at hb
    | cons i r => cases i with
      | label l => exact ⟨l, r, rfl⟩
      | bal l => simp [blocks] at hb
      | br c l => simp [blocks] at hb
      | op c => simp [blocks] at hb
  rw [blocks] at hb
  have hlr : labels (.label l :: r) = l :: labels r := rfl
  have hn := hok.nodup
  rw [hlr, List.nodup_cons] at hn
  have hf : l < t ∧ ∀ x ∈ labels r, x < t := by
    refine ⟨hok.fresh (.label l) (by simp), fun x hx => ?_⟩
    obtain ⟨a, b, rfl⟩ := mem_labels.mp hx
    exact hok.fresh (.label x) (by simp)
  have hc : Cur .plain (l, [.label l]) := .plain (mid := []) (by simp)
  obtain ⟨a1, ⟨more, b1, b2, b3, b4⟩, a3, a4⟩ := build_shape r .plain t [] (l, [.label l]) bs t' hc hb hn.2 hf.2
  simp only [List.map_nil, List.nil_append] at b1
  have hnd : (bs.map (·.1)).Nodup := by
    rw [b1, List.nodup_cons]
    refine ⟨fun h => ?_, b2⟩
    rcases b3 l h with h | h
    · exact hn.1 h
    · omega
  have hfr : ∀ p ∈ bs, p.1 < t' := by
    intro p hp
    have : p.1 ∈ bs.map (·.1) := List.mem_map_of_mem hp
    rw [b1, List.mem_cons] at this
    rcases this with h | h
    · omega
    · rcases b3 _ h with h | h
      · have := hf.2 _ h; omega
      · exact h.2
  have hdone : ∀ p ∈ bs, Done p := fun p hp => by
    rcases a4 p hp with h | h
    · simp at h
    · exact h.1
  have hgood := edges_good he hnd hdone hfr
  have hex : ∀ p ∈ bs, ∀ x ∈ targets p.2, x ∈ bs.map (·.1) := by
    unfold edges at he
    split at he
    · next hex =>
      rw [List.all_eq_true] at hex
      intro p hp x hx
      have := hex x (List.mem_flatMap.mpr ⟨p, hp, hx⟩)
      simpa using this
    · cases he
  obtain ⟨⟨tail, c1, c2⟩, c3⟩ := build_rep hok hnd hex
    (by
      intro x hx hxt
      rw [b1, List.mem_cons] at hx
      rw [hlr, List.mem_cons]
      refine hx.imp_right fun h => ?_
      rcases b3 x h with h | h
      · exact h
      · omega) r .plain t [] (l, [.label l]) t' hc hb (Nat.le_refl _) ⟨[.label l], rfl⟩ (by simp [goes])
  have hcase : bs = (l, .label l :: tail) :: bs.tail := by
    cases bs with
    | nil => simp at b1
    | cons p bs =>
      simp only [List.map_cons, List.cons.injEq] at b1
      simp only [List.tail_cons, List.cons.injEq, and_true]
      have h1 := blockJumps_mem hnd c1
      have h2 := blockJumps_mem hnd (n := p.1) (ops := p.2) (by simp)
      dsimp only at h1
      rw [b1.1, h1] at h2
      obtain ⟨p1, p2⟩ := p
      simp only at b1 h2
      rw [b1.1, ← Option.some.inj h2]
      rfl
  have hentry : entryOps g = .label l :: tail ∧ g.head?.map (·.name) = some l := by
    unfold edges at he
    split at he
    · obtain rfl := Option.some.inj he
      rw [hcase]
      exact ⟨rfl, rfl⟩
    · cases he
  refine ⟨hgood, ?_, hentry.2, ?_⟩
  · rw [hentry.1, graphJumps_edges he]
    refine same_of (T := fun a b => a = b ∧ a ∈ labels (.label l :: r)) ?_ (.labelL (.labelR c2))
    rintro x _ ⟨rfl, hx⟩
    obtain ⟨pre, r', e⟩ := mem_labels.mp hx
    cases pre with
    | nil =>
      obtain ⟨e1, rfl⟩ := List.cons.inj e
      obtain rfl := Ins.label.inj e1
      exact ⟨_, _, codeJumps_suffix (pre := []) hok.nodup rfl, blockJumps_mem hnd c1, .labelL (.labelR c2)⟩
    | cons j pre =>
      obtain ⟨rfl, rfl⟩ := List.cons.inj e
      obtain ⟨tail', d1, d2⟩ := c3 pre x r' rfl
      exact ⟨_, _, codeJumps_suffix (pre := _ :: pre) hok.nodup rfl, blockJumps_mem hnd d1, .labelL (.labelR d2)⟩
  · unfold edges at he
    split at he
    · obtain rfl := Option.some.inj he
      intro b hb' s hs
      obtain ⟨p, hp, rfl⟩ := List.mem_map.mp hb'
      rcases a4 p hp with h | ⟨_, h⟩
      · simp at h
      · rcases h s hs with ⟨_, h | h⟩ | ⟨i, h | h, e⟩
        · exact .inr (.inl h)
        · exact .inr (.inr h)
        · simp only [List.mem_singleton] at h
          subst h
          simp [goes] at e
        · exact .inl ⟨i, by simp [h], e⟩
    · cases he

/-! ### Success -/

theorem build_some : ∀ (rest : List Ins) (last : Last) (t : Nat) (dn : List (Nat × List Ins)) (cur : Nat × List Ins),
    (rest = [] → last = .plain) → (∀ i, rest.getLast? = some i → i.branch = false) → ∃ r, build last t dn cur rest = some r := by
  intro rest
  induction rest with
  | nil => intro last t dn cur h _; rw [h rfl, build_nil]; exact ⟨_, rfl⟩
  | cons i r ih =>
    intro last t dn cur _ h
    have hlast : i.branch = false → i.last = .plain := by cases i <;> simp [Ins.branch, Ins.last]
    have h1 : r = [] → i.branch = false := by rintro rfl; exact h i rfl
    have h2 : ∀ j, r.getLast? = some j → j.branch = false := by
      intro j hj
      refine h j ?_
      cases r with
      | nil => simp at hj
      | cons x r => rw [List.getLast?_cons_cons]; exact hj
    by_cases hi : i.isLabel = false
    · cases last with
      | plain => rw [build_plain _ _ _ hi]; exact ih _ _ _ _ (fun e => hlast (h1 e)) h2
      | br => rw [build_br _ _ _ hi]; exact ih _ _ _ _ (fun e => hlast (h1 e)) h2
      | bal =>
        rw [build_bal _ _ _ hi]
        split
        · next hb =>
          refine ih _ _ _ _ (fun e => ?_) h2
          rw [h1 e] at hb
          cases hb
        · exact ih _ _ _ _ (fun e => hlast (h1 e)) h2
    · obtain ⟨l, rfl⟩ : ∃ l, i = .label l := by cases i <;> simp [Ins.isLabel] at hi ⊢
      rw [build_label]
      exact ih _ _ _ _ (fun _ => rfl) h2

theorem blocks_some {t l : Nat} {r : List Ins} (hok : CodeOk t (.label l :: r)) (hend : ∀ i, r.getLast? = some i → i.branch = false)
    (hex : ∀ i ∈ r, ∀ x, goes i = some x → x ∈ labels (.label l :: r)) :
    ∃ bs t' g, blocks t (.label l :: r) = some (bs, t') ∧ edges bs = some g := by
  obtain ⟨⟨bs, t'⟩, hb⟩ := build_some r .plain t [] (l, [.label l]) (fun _ => rfl) hend
  have hlr : labels (.label l :: r) = l :: labels r := rfl
  have hn := hok.nodup
  rw [hlr, List.nodup_cons] at hn
  have hf : ∀ x ∈ labels r, x < t := by
    intro x hx
    obtain ⟨a, b, rfl⟩ := mem_labels.mp hx
    exact hok.fresh (.label x) (by simp)
  obtain ⟨_, ⟨more, b1, _, _, b4⟩, _, a4⟩ := build_shape r .plain t [] (l, [.label l]) bs t' (.plain (mid := []) (by simp)) hb hn.2 hf
  have hall : ((bs.flatMap fun b => targets b.2).all fun x => (bs.map (·.1)).contains x) = true := by
    rw [List.all_eq_true]
    intro x hx
    obtain ⟨p, hp, hx⟩ := List.mem_flatMap.mp hx
    rw [List.contains_iff_mem]
    rcases a4 p hp with h | ⟨_, h⟩
    · simp at h
    · rcases h x hx with h | ⟨i, h | h, e⟩
      · exact h.1
      · simp only [List.mem_singleton] at h
        subst h
        simp [goes] at e
      · have := hex i h x e
        rw [hlr, List.mem_cons] at this
        rw [b1]
        simp only [List.map_nil, List.nil_append, List.mem_cons]
        exact this.imp_right (b4 x)
  have he : ∃ g, edges bs = some g := by
    unfold edges
    rw [if_pos hall]
    exact ⟨_, rfl⟩
  obtain ⟨g, he⟩ := he
  exact ⟨bs, t', g, hb, he⟩

end Nature.Cfg
