import Verif.Map.OpLemmas
/-! Refinement to the abstract finite map. -/
namespace Nature.Map
open Nature

set_option linter.unusedSectionVars false
variable {K I V : Type} [DecidableEq I] [DecidableEq K]

/-- The entries of the runtime map are the pairs of the abstract map. -/
structure Abs (m : Map K V) (s : List (K × V)) : Prop where
  len : s.length = m.len
  nodup : (s.map Prod.fst).Nodup
  mem : ∀ k v, (k, v) ∈ s ↔ ∃ i : Nat, i < m.len ∧ m.keys[i]? = some k ∧ m.vals[i]? = some v

theorem nodup_val {s : List (K × V)} (h : (s.map Prod.fst).Nodup) {k : K} {v v' : V} (h1 : (k, v) ∈ s) (h2 : (k, v') ∈ s) : v = v' := by
  induction s with
  | nil => cases h1
  | cons p s ih =>
    rw [List.map_cons, List.nodup_cons] at h
    rcases List.mem_cons.1 h1 with e1 | e1
    · rcases List.mem_cons.1 h2 with e2 | e2
      · rw [← e2] at e1; exact congrArg Prod.snd e1
      · subst e1
        exact absurd (List.mem_map.2 ⟨_, e2, rfl⟩) h.1
    · rcases List.mem_cons.1 h2 with e2 | e2
      · subst e2
        exact absurd (List.mem_map.2 ⟨_, e1, rfl⟩) h.1
      · exact ih h.2 e1 e2

theorem lookup_some {s : List (K × V)} (h : (s.map Prod.fst).Nodup) {k : K} {v : V} (hm : (k, v) ∈ s) : lookup s k = some v := by
  unfold lookup
  cases hf : s.find? fun p => decide (p.1 = k) with
  | none =>
    rw [List.find?_eq_none] at hf
    have := hf _ hm
    simp at this
  | some p =>
    have h1 := List.find?_some hf
    have h2 := List.mem_of_find?_eq_some hf
    simp at h1
    obtain ⟨a, b⟩ := p
    simp only at h1
    subst h1
    rw [nodup_val h hm h2]; rfl

theorem lookup_none {s : List (K × V)} {k : K} (hm : ∀ v, (k, v) ∉ s) : lookup s k = none := by
  unfold lookup
  rw [Option.map_eq_none_iff, List.find?_eq_none]
  rintro ⟨a, b⟩ hab
  simp only [decide_eq_true_eq]
  rintro rfl
  exact hm b hab

theorem filter_length {s : List (K × V)} (h : (s.map Prod.fst).Nodup) {k : K} {v : V} (hm : (k, v) ∈ s) :
    (s.filter (fun p => decide (p.1 ≠ k))).length + 1 = s.length := by
  induction s with
  | nil => cases hm
  | cons p s ih =>
    rw [List.map_cons, List.nodup_cons] at h
    by_cases hp : p.1 = k
    · rw [List.filter_cons_of_neg (by simp [hp])]
      have : s.filter (fun p => decide (p.1 ≠ k)) = s := by
        rw [List.filter_eq_self]
        intro q hq
        simp only [ne_eq, decide_eq_true_eq]
        intro hqk
        exact h.1 (List.mem_map.2 ⟨q, hq, by rw [hqk, hp]⟩)
      rw [this]; rfl
    · rw [List.filter_cons_of_pos (by simp [hp])]
      rcases List.mem_cons.1 hm with e | e
      · subst e; exact absurd rfl hp
      · simp only [List.length_cons]; rw [ih h.2 e]

theorem filter_absent {s : List (K × V)} {k : K} (hm : ∀ v, (k, v) ∉ s) : s.filter (fun p => decide (p.1 ≠ k)) = s := by
  rw [List.filter_eq_self]
  rintro ⟨a, b⟩ hq
  simp only [ne_eq, decide_eq_true_eq]
  rintro rfl
  exact hm b hq

theorem mem_filter_ne {s : List (K × V)} {k a : K} {b : V} :
    (a, b) ∈ s.filter (fun p => decide (p.1 ≠ k)) ↔ (a, b) ∈ s ∧ a ≠ k := by
  rw [List.mem_filter]; simp

theorem filter_nodup {s : List (K × V)} (h : (s.map Prod.fst).Nodup) (k : K) :
    ((s.filter (fun p => decide (p.1 ≠ k))).map Prod.fst).Nodup :=
  h.sublist (List.Sublist.map _ List.filter_sublist)

theorem insert_nodup {s : List (K × V)} (h : (s.map Prod.fst).Nodup) (k : K) (v : V) :
    (((k, v) :: s.filter (fun p => decide (p.1 ≠ k))).map Prod.fst).Nodup := by
  rw [List.map_cons, List.nodup_cons]
  refine ⟨?_, filter_nodup h k⟩
  intro hk
  obtain ⟨⟨a, b⟩, hab, e⟩ := List.mem_map.1 hk
  simp only at e
  subst e
  exact (mem_filter_ne.1 hab).2 rfl

/-- The runtime state represents the abstract map, with at most `t` tombstones. -/
def Good (o : KeyOps K I) (m : Map K V) (t : Nat) (s : List (K × V)) : Prop :=
  (m = zeroed ∧ s = []) ∨ (Inv o m t ∧ Abs m s)

theorem abs_new (zk : K) (zv : V) : Abs (new zk zv : Map K V) [] :=
  ⟨rfl, by simp, by intro k v; simp [new]⟩

theorem good_new (o : KeyOps K I) (zk : K) (zv : V) : Good o (new zk zv : Map K V) 0 [] :=
  Or.inr ⟨inv_empty o 16 (by omega) (by omega) zk zv, abs_new zk zv⟩

/-- Number of deletions of an operation. -/
def dels : Op K V → Nat
  | .delete _ => 1
  | _ => 0

theorem Abs.absent {o : KeyOps K I} {m : Map K V} {s : List (K × V)} (h : Abs m s) {k : K}
    (ha : ∀ (d : Nat) k', d < m.len → m.keys[d]? = some k' → o.img k' ≠ o.img k) : ∀ v, (k, v) ∉ s := by
  intro v hv
  obtain ⟨i, h1, h2, _⟩ := (h.mem k v).1 hv
  exact ha i k h1 h2 rfl

/-- Facts about assignment shared by the zeroed and the initialised map. -/
theorem assign_good {o : KeyOps K I} (hinj : ∀ a b, o.img a = o.img b → a = b) {m : Map K V} {t : Nat} {s : List (K × V)}
    (hi : Inv o m t) (ha : Abs m s) (zk : K) (zv : V) (k : K) (v : V) (hl : s.length < 2147483648) :
    (∃ m', assign o zk zv m k v = .ok m' ∧ Good o m' t (specStep s (.assign k v)).1) ∨
    (assign o zk zv m k v = .abort ∧ m.cap ≤ m.len + t) := by
  rcases assign_spec hi zk zv k v (by rw [← ha.len]; exact hl) with ⟨d, k', m', hd, hk, he, e, hi', hl', hks, hvs⟩ | ⟨hab, ⟨m', e, hi', hl', hks, hvs⟩ | he⟩
  · left
    refine ⟨m', e, Or.inr ⟨hi', ?_⟩⟩
    have hkk := hinj _ _ he
    subst hkk
    have hvl : d < m.vals.length := by have := hi.vl; have := hi.load; omega
    have hmem : (k', m.vals[d]) ∈ s := (ha.mem _ _).2 ⟨d, hd, hk, List.getElem?_eq_getElem hvl⟩
    refine ⟨?_, insert_nodup ha.nodup k' v, ?_⟩
    · simp only [specStep, List.length_cons]
      rw [filter_length ha.nodup hmem, hl', ha.len]
    · intro a b
      simp only [specStep, List.mem_cons, mem_filter_ne]
      constructor
      · rintro (e1 | ⟨e1, e2⟩)
        · cases e1
          exact ⟨d, by omega, by rw [hks d hd, if_pos rfl], by rw [hvs d hd, if_pos rfl]⟩
        · obtain ⟨i, h1, h2, h3⟩ := (ha.mem a b).1 e1
          have hid : i ≠ d := by rintro rfl; rw [hk] at h2; cases h2; exact e2 rfl
          exact ⟨i, by omega, by rw [hks i h1, if_neg hid]; exact h2, by rw [hvs i h1, if_neg hid]; exact h3⟩
      · rintro ⟨i, h1, h2, h3⟩
        rw [hl'] at h1
        rw [hks i h1] at h2
        rw [hvs i h1] at h3
        by_cases hid : i = d
        · rw [if_pos hid] at h2 h3; cases h2; cases h3; exact Or.inl rfl
        · rw [if_neg hid] at h2 h3
          refine Or.inr ⟨(ha.mem a b).2 ⟨i, h1, h2, h3⟩, ?_⟩
          rintro rfl
          exact hid (hi.dist i d _ _ h1 hd h2 hk rfl)
  · left
    refine ⟨m', e, Or.inr ⟨hi', ?_⟩⟩
    have hns := ha.absent hab
    refine ⟨?_, insert_nodup ha.nodup k v, ?_⟩
    · simp only [specStep, List.length_cons, filter_absent hns]
      rw [hl', ha.len]
    · intro a b
      simp only [specStep, List.mem_cons, filter_absent hns]
      constructor
      · rintro (e1 | e1)
        · cases e1
          exact ⟨m.len, by omega, by rw [hks _ (by omega), if_pos rfl], by rw [hvs _ (by omega), if_pos rfl]⟩
        · obtain ⟨i, h1, h2, h3⟩ := (ha.mem a b).1 e1
          have hid : i ≠ m.len := by omega
          exact ⟨i, by omega, by rw [hks i (by omega), if_neg hid]; exact h2, by rw [hvs i (by omega), if_neg hid]; exact h3⟩
      · rintro ⟨i, h1, h2, h3⟩
        rw [hl'] at h1
        rw [hks i h1] at h2
        rw [hvs i h1] at h3
        by_cases hid : i = m.len
        · rw [if_pos hid] at h2 h3; cases h2; cases h3; exact Or.inl rfl
        · rw [if_neg hid] at h2 h3
          exact Or.inr ((ha.mem a b).2 ⟨i, by omega, h2, h3⟩)
  · exact Or.inr he

/-- One operation: the runtime answers like the abstract map, or aborts with a table without any empty slot. -/
theorem step_refines {o : KeyOps K I} (hinj : ∀ a b, o.img a = o.img b → a = b) (zk : K) (zv : V) {m : Map K V} {t : Nat}
    {s : List (K × V)} (h : Good o m t s) (op : Op K V) (hl : s.length < 2147483648) :
    (∃ m', implStep o zk zv m op = .ok (m', (specStep s op).2) ∧ Good o m' (t + dels op) (specStep s op).1) ∨
    (implStep o zk zv m op = .abort ∧ 16 ≤ m.cap ∧ 4 * m.len ≤ 3 * m.cap ∧ m.cap ≤ m.len + t) := by
  rcases h with ⟨hz, hs⟩ | ⟨hi, ha⟩
  · subst hz hs
    left
    cases op with
    | assign k v =>
      have hg := assign_good hinj (inv_empty o 16 (by omega) (by omega) zk zv) (abs_new zk zv) zk zv k v (by simp)
      have hz : assign o zk zv (zeroed : Map K V) k v = assign o zk zv (new zk zv) k v := by
        unfold assign zeroed
        simp [new]
      rcases hg with ⟨m', e, hm⟩ | ⟨_, hc⟩
      · refine ⟨m', ?_, ?_⟩
        · unfold implStep
          simp only
          rw [hz]
          show (assign o zk zv (new zk zv) k v).bind _ = _
          have e' : assign o zk zv (new zk zv) k v = .ok m' := e
          rw [e']; rfl
        · rcases hm with ⟨_, hs⟩ | ⟨hi, ha⟩
          · simp [specStep] at hs
          · exact Or.inr ⟨⟨hi.cap16, hi.capB, hi.tl, hi.kl, hi.vl, hi.load, hi.lt, hi.inj, hi.path, hi.dist, hi.cnt, by have := hi.dead; omega⟩, ha⟩
      · simp at hc
    | delete k =>
      exact ⟨zeroed, by simp [implStep, delete, zeroed, specStep], Or.inl ⟨rfl, rfl⟩⟩
    | access k => exact ⟨zeroed, by simp [implStep, access, zeroed, specStep, lookup], Or.inl ⟨rfl, rfl⟩⟩
    | contains k => exact ⟨zeroed, by simp [implStep, contains, zeroed, specStep, lookup], Or.inl ⟨rfl, rfl⟩⟩
    | len => exact ⟨zeroed, by simp [implStep, zeroed, specStep], Or.inl ⟨rfl, rfl⟩⟩
  · cases op with
    | assign k v =>
      rcases assign_good hinj hi ha zk zv k v hl with ⟨m', e, hm⟩ | ⟨e, hc⟩
      · left
        exact ⟨m', by unfold implStep; simp only; rw [e]; rfl, hm⟩
      · right
        exact ⟨by unfold implStep; simp only; rw [e]; rfl, hi.cap16, hi.load, hc⟩
    | delete k =>
      rcases delete_spec hi zk zv k with ⟨d, k', m', hd, hk, he, e, hi', hl', hks, hvs⟩ | ⟨hab, e | ⟨e, hc⟩⟩
      · left
        refine ⟨m', by unfold implStep; simp only; rw [e]; rfl, Or.inr ⟨hi', ?_⟩⟩
        have hkk := hinj _ _ he
        subst hkk
        have hvl : d < m.vals.length := by have := hi.vl; have := hi.load; omega
        have hmem : (k', m.vals[d]) ∈ s := (ha.mem _ _).2 ⟨d, hd, hk, List.getElem?_eq_getElem hvl⟩
        refine ⟨?_, filter_nodup ha.nodup k', ?_⟩
        · have := filter_length ha.nodup hmem
          have := ha.len
          simp only [specStep]; omega
        · intro a b
          simp only [specStep, mem_filter_ne]
          constructor
          · rintro ⟨e1, e2⟩
            obtain ⟨i, h1, h2, h3⟩ := (ha.mem a b).1 e1
            have hid : i ≠ d := by rintro rfl; rw [hk] at h2; cases h2; exact e2 rfl
            by_cases hil : i = m.len - 1
            · refine ⟨d, by omega, ?_, ?_⟩
              · rw [hks d (by omega), if_pos rfl, ← hil]; exact h2
              · rw [hvs d (by omega), if_pos rfl, ← hil]; exact h3
            · exact ⟨i, by omega, by rw [hks i (by omega), if_neg hid]; exact h2, by rw [hvs i (by omega), if_neg hid]; exact h3⟩
          · rintro ⟨i, h1, h2, h3⟩
            rw [hl'] at h1
            rw [hks i h1] at h2
            rw [hvs i h1] at h3
            by_cases hid : i = d
            · rw [if_pos hid] at h2 h3
              refine ⟨(ha.mem a b).2 ⟨m.len - 1, by omega, h2, h3⟩, ?_⟩
              rintro rfl
              have := hi.dist (m.len - 1) d _ _ (by omega) hd h2 hk rfl
              omega
            · rw [if_neg hid] at h2 h3
              refine ⟨(ha.mem a b).2 ⟨i, by omega, h2, h3⟩, ?_⟩
              rintro rfl
              exact hid (hi.dist i d _ _ (by omega) hd h2 hk rfl)
      · left
        refine ⟨m, by unfold implStep; simp only; rw [e]; rfl, Or.inr ⟨⟨hi.cap16, hi.capB, hi.tl, hi.kl, hi.vl, hi.load, hi.lt, hi.inj, hi.path, hi.dist, hi.cnt, by have := hi.dead; omega⟩, ?_⟩⟩
        simp only [specStep, filter_absent (ha.absent hab)]
        exact ha
      · right
        exact ⟨by unfold implStep; simp only; rw [e]; rfl, hi.cap16, hi.load, hc⟩
    | access k =>
      rcases access_spec hi k with ⟨d, k', v, hd, hk, he, hv, e⟩ | ⟨hab, e | ⟨e, hc⟩⟩
      · left
        have hkk := hinj _ _ he
        subst hkk
        refine ⟨m, ?_, Or.inr ⟨hi, ha⟩⟩
        simp only [implStep, e, specStep, lookup_some ha.nodup ((ha.mem _ _).2 ⟨d, hd, hk, hv⟩)]
      · left
        refine ⟨m, ?_, Or.inr ⟨hi, ha⟩⟩
        simp only [implStep, e, specStep, lookup_none (ha.absent hab)]
      · right
        exact ⟨by simp only [implStep, e], hi.cap16, hi.load, hc⟩
    | contains k =>
      rcases contains_spec hi k with ⟨d, k', hd, hk, he, e⟩ | ⟨hab, e | ⟨e, hc⟩⟩
      · left
        have hkk := hinj _ _ he
        subst hkk
        refine ⟨m, ?_, Or.inr ⟨hi, ha⟩⟩
        have hvl : d < m.vals.length := by have := hi.vl; have := hi.load; omega
        simp only [implStep, e, Res.bind_ok, specStep, lookup_some ha.nodup ((ha.mem _ _).2 ⟨d, hd, hk, List.getElem?_eq_getElem hvl⟩)]
        rfl
      · left
        refine ⟨m, ?_, Or.inr ⟨hi, ha⟩⟩
        simp only [implStep, e, Res.bind_ok, specStep, lookup_none (ha.absent hab)]
        rfl
      · right
        exact ⟨by simp only [implStep, e]; rfl, hi.cap16, hi.load, hc⟩
    | len =>
      left
      exact ⟨m, by simp only [implStep, specStep, ha.len], Or.inr ⟨hi, ha⟩⟩

/-- Every prefix of the history keeps fewer than 2^31 keys. -/
def Bounded : List (K × V) → List (Op K V) → Prop
  | _, [] => True
  | s, op :: ops => s.length < 2147483648 ∧ Bounded (specStep s op).1 ops

/-- Number of deletions in a history. -/
def countDels : List (Op K V) → Nat
  | [] => 0
  | op :: ops => dels op + countDels ops

theorem run_refines {o : KeyOps K I} (hinj : ∀ a b, o.img a = o.img b → a = b) (zk : K) (zv : V) (ops : List (Op K V))
    {m : Map K V} {t : Nat} {s : List (K × V)} (h : Good o m t s) (hb : Bounded s ops) :
    implRun o zk zv m ops = specRun s ops ∨ ∃ n, n < ops.length ∧ implRun o zk zv m ops = (specRun s ops).take n ++ [.abort] := by
  induction ops generalizing m t s with
  | nil => exact Or.inl rfl
  | cons op ops ih =>
    rcases step_refines hinj zk zv h op hb.1 with ⟨m', e, hg⟩ | ⟨e, _⟩
    · rcases ih hg hb.2 with e' | ⟨n, hn, e'⟩
      · left
        simp only [implRun, e, specRun, e']
      · right
        refine ⟨n + 1, by simp; omega, ?_⟩
        simp only [implRun, e, specRun, e', List.take_succ_cons, List.cons_append]
    · right
      refine ⟨0, by simp, ?_⟩
      simp only [implRun, e, List.take_zero, List.nil_append]

theorem run_no_abort {o : KeyOps K I} (hinj : ∀ a b, o.img a = o.img b → a = b) (zk : K) (zv : V) (ops : List (Op K V))
    {m : Map K V} {t : Nat} {s : List (K × V)} (h : Good o m t s) (hb : Bounded s ops) (ht : t + countDels ops < 4) :
    implRun o zk zv m ops = specRun s ops := by
  induction ops generalizing m t s with
  | nil => rfl
  | cons op ops ih =>
    unfold countDels at ht
    rcases step_refines hinj zk zv h op hb.1 with ⟨m', e, hg⟩ | ⟨_, h1, h2, h3⟩
    · simp only [implRun, e, specRun, ih hg hb.2 (by omega)]
    · omega

theorem state_refines {o : KeyOps K I} (hinj : ∀ a b, o.img a = o.img b → a = b) (zk : K) (zv : V) (ops : List (Op K V))
    {m m' : Map K V} {t : Nat} {s : List (K × V)} (h : Good o m t s) (hb : Bounded s ops)
    (he : implState o zk zv m ops = .ok m') : ∃ t', Good o m' t' (specState s ops) := by
  induction ops generalizing m t s with
  | nil => cases he; exact ⟨t, h⟩
  | cons op ops ih =>
    unfold implState at he
    rcases step_refines hinj zk zv h op hb.1 with ⟨m1, e, hg⟩ | ⟨e, _⟩
    · rw [e, Res.bind_ok] at he
      exact ih hg hb.2 he
    · rw [e] at he; cases he

/-- The pairs stored at data indices `i, i+1, ...`. -/
def entriesFrom (m : Map K V) : Nat → Nat → List (K × V)
  | 0, _ => []
  | n + 1, i =>
    match m.keys[i]?, m.vals[i]? with
    | some k, some v => (k, v) :: entriesFrom m n (i + 1)
    | _, _ => []

theorem iterate_spec {o : KeyOps K I} {m : Map K V} {t : Nat} (hi : Inv o m t) (hl : m.len < 2147483648) (n i : Nat) (hn : i + n = m.len) (fuel : Nat)
    (hf : n < fuel) : iterate m fuel ((i : Int) - 1) = .ok (entriesFrom m n i) := by
  induction n generalizing i fuel with
  | zero =>
    obtain ⟨f, rfl⟩ : ∃ f, fuel = f + 1 := ⟨fuel - 1, by omega⟩
    unfold iterate nextKey
    rw [if_pos (by omega), if_pos (by omega), Res.bind_ok]
    rfl
  | succ n ih =>
    obtain ⟨f, rfl⟩ : ∃ f, fuel = f + 1 := ⟨fuel - 1, by omega⟩
    have hload := hi.load
    have hk : m.keys[i]? = some _ := List.getElem?_eq_getElem (by have := hi.kl; omega)
    have hv : m.vals[i]? = some _ := List.getElem?_eq_getElem (by have := hi.vl; omega)
    unfold iterate nextKey entriesFrom
    rw [if_pos (by omega), if_neg (by omega), show ((i : Int) - 1 + 1).toNat = i by omega, cell_ok hk, Res.bind_ok, Res.bind_ok, hk, hv]
    simp only
    unfold takeValue
    rw [if_pos (by omega), cell_ok hv, Res.bind_ok]
    have := ih (i + 1) (by omega) f (by omega)
    rw [show ((i + 1 : Nat) : Int) - 1 = (i : Int) by omega] at this
    rw [this, Res.bind_ok]

theorem entriesFrom_mem {o : KeyOps K I} {m : Map K V} {t : Nat} (hi : Inv o m t) (n i : Nat) (hn : i + n = m.len) (k : K) (v : V) :
    (k, v) ∈ entriesFrom m n i ↔ ∃ j : Nat, i ≤ j ∧ j < m.len ∧ m.keys[j]? = some k ∧ m.vals[j]? = some v := by
  induction n generalizing i with
  | zero =>
    unfold entriesFrom
    constructor
    · intro h; cases h
    · rintro ⟨j, _⟩; omega
  | succ n ih =>
    have hload := hi.load
    have hk : m.keys[i]? = some _ := List.getElem?_eq_getElem (by have := hi.kl; omega)
    have hv : m.vals[i]? = some _ := List.getElem?_eq_getElem (by have := hi.vl; omega)
    unfold entriesFrom
    rw [hk, hv]
    simp only [List.mem_cons]
    rw [ih (i + 1) (by omega)]
    constructor
    · rintro (e | ⟨j, h1, h2, h3, h4⟩)
      · cases e; exact ⟨i, Nat.le_refl _, by omega, hk, hv⟩
      · exact ⟨j, by omega, h2, h3, h4⟩
    · rintro ⟨j, h1, h2, h3, h4⟩
      by_cases hj : j = i
      · subst hj
        rw [hk] at h3; rw [hv] at h4
        cases h3; cases h4; exact Or.inl rfl
      · exact Or.inr ⟨j, by omega, h2, h3, h4⟩

theorem entriesFrom_nodup {o : KeyOps K I} {m : Map K V} {t : Nat} (hi : Inv o m t) (n i : Nat) (hn : i + n = m.len) :
    ((entriesFrom m n i).map Prod.fst).Nodup := by
  induction n generalizing i with
  | zero => simp [entriesFrom]
  | succ n ih =>
    have hload := hi.load
    have hk : m.keys[i]? = some _ := List.getElem?_eq_getElem (by have := hi.kl; omega)
    have hv : m.vals[i]? = some _ := List.getElem?_eq_getElem (by have := hi.vl; omega)
    unfold entriesFrom
    rw [hk, hv]
    simp only [List.map_cons, List.nodup_cons]
    refine ⟨?_, ih (i + 1) (by omega)⟩
    intro hm
    obtain ⟨⟨a, b⟩, h1, h2⟩ := List.mem_map.1 hm
    obtain ⟨j, g1, g2, g3, g4⟩ := (entriesFrom_mem hi n (i + 1) (by omega) a b).1 h1
    simp only at h2
    have := hi.dist i j _ _ (by omega) g2 hk g3 (by rw [h2])
    omega

end Nature.Map
