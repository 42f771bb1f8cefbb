import Verif.Capture.Heap

namespace Nature.Capture

/-! ## Whole programs -/

/-- Between two global functions nothing local is left. -/
def Base (s : State) : Prop := ∀ f ∈ s.frames, f.locals = [] ∧ f.frees = []

theorem weak_base {fs : List Frame} (h : ∀ f ∈ fs, f.locals = []) (hw : Weak fs) :
    ∀ f ∈ fs, f.frees = [] := by
  induction fs with
  | nil => intro f hf; cases hf
  | cons g fs ih =>
    have ht := ih (fun a ha => h a (List.mem_cons_of_mem _ ha)) hw.2
    intro f hf
    rcases List.mem_cons.1 hf with rfl | hf
    · by_cases he : f.frees = []
      · exact he
      · obtain ⟨a, ha, hn⟩ := hw.1 he
        exact absurd (h a (List.mem_cons_of_mem _ ha)) hn
    · exact ht f hf

theorem base_uniq {fs : List Frame} (h : ∀ f ∈ fs, f.locals = []) : Uniq fs := by
  induction fs with
  | nil => trivial
  | cons g fs ih =>
    refine ⟨?_, ih (fun a ha => h a (List.mem_cons_of_mem _ ha))⟩
    intro l hl
    rw [h g (List.mem_cons_self ..)] at hl
    cases hl

theorem base_weak {fs : List Frame} (h : ∀ f ∈ fs, f.frees = []) : Weak fs := by
  induction fs with
  | nil => trivial
  | cons g fs ih =>
    exact ⟨fun hn => absurd (h g (List.mem_cons_self ..)) hn,
      ih (fun a ha => h a (List.mem_cons_of_mem _ ha))⟩

theorem base_frees {fs : List Frame} (h : ∀ f ∈ fs, f.frees = []) : FreesOk fs := by
  induction fs with
  | nil => trivial
  | cons g fs ih =>
    refine ⟨?_, ih (fun a ha => h a (List.mem_cons_of_mem _ ha))⟩
    intro e he
    rw [h g (List.mem_cons_self ..)] at he
    cases he

theorem base_ext {fs : List Frame} (h : ∀ f ∈ fs, f.frees = []) : Ext fs [] := by
  induction fs with
  | nil => trivial
  | cons g fs ih =>
    exact ⟨h g (List.mem_cons_self ..), ih (fun a ha => h a (List.mem_cons_of_mem _ ha))⟩

theorem base_small {fs : List Frame} (h : ∀ f ∈ fs, f.frees = []) : Small fs := by
  intro f hf
  rw [h f hf]
  exact Nat.zero_le _

theorem base_vis {fs : List Frame} (h : ∀ f ∈ fs, f.locals = []) : ∀ v ∈ fs.map vis, v = [] := by
  intro v hv
  obtain ⟨f, hf, rfl⟩ := List.mem_map.1 hv
  unfold vis
  rw [h f hf]
  rfl

/-- Functions with nothing visible do not matter. -/
theorem find_dead {x : Name} {vs ws : List Visible} (h : ∀ v ∈ ws, v = []) :
    find x (vs ++ ws) = find x vs := by
  induction vs with
  | nil =>
    induction ws with
    | nil => rfl
    | cons w ws ih =>
      have := h w (List.mem_cons_self ..)
      subst this
      rw [List.nil_append, find]
      have := ih (fun v hv => h v (List.mem_cons_of_mem _ hv))
      rw [List.nil_append] at this
      show (find x ws).map _ = _
      rw [this]
      rfl
  | cons v vs ih =>
    rw [List.cons_append, find, find, ih]

theorem meanings_dead (c : Code) : ∀ {v : Visible} {vs ws : List Visible} {n : Nat},
    (∀ w ∈ ws, w = []) → meanings ((v :: vs) ++ ws) n c = meanings (v :: vs) n c := by
  induction c with
  | nil => intro v vs ws n _; rfl
  | use x k ih =>
    intro v vs ws n h
    rw [meanings, meanings, ih h, meaning, meaning, find_dead h]
  | decl x k ih =>
    intro v vs ws n h
    rw [meanings, meanings]
    exact ih h
  | const x k ih =>
    intro v vs ws n h
    rw [meanings, meanings]
    exact ih h
  | block b k ihb ihk =>
    intro v vs ws n h
    rw [meanings, meanings, ihb h, ihk h]
  | fn ps b k ihb ihk =>
    intro v vs ws n h
    rw [meanings, meanings, ihk h, ← List.cons_append, ihb h]

theorem globalStart_good {ps : List Name} {s : State} (hb : Base s) :
    Good (addParams ps (beginScope (enter s))) ⟨paramLocals s.next 1 ps [], 1, []⟩ s.frames ∧
      (∀ l ∈ paramLocals s.next 1 ps [], l.depth = 1) ∧
      (addParams ps (beginScope (enter s))).next = s.next + ps.length := by
  have h0 : Good (enter s) ⟨[], 0, []⟩ s.frames := by
    refine enter_good ?_ (base_uniq fun f hf => (hb f hf).1) rfl ?_
      (base_weak fun f hf => (hb f hf).2)
    · intro f hf
      rw [(hb f hf).1, (hb f hf).2]
      simp
    · intro f hf l hl
      rw [(hb f hf).1] at hl
      cases hl
  have h1 := beginScope_good h0 (by show 0 + 1 < 256; omega)
  obtain ⟨h2, h3, h4⟩ := addParams_good (ps := ps) h1
  have hn : (beginScope (enter s)).next = s.next := rfl
  rw [hn] at h2 h3 h4
  refine ⟨h2, ?_, h4⟩
  obtain ⟨new, e, hd⟩ := h3.locals
  dsimp only at e hd
  intro l hl
  have e' : paramLocals s.next 1 ps [] = new := by simpa using e
  rw [e'] at hl
  exact hd l hl

theorem analyzeGlobal_spec {f : Fun} (hp : Plain f) {s : State} (hb : Base s) {o : Out} {s' : State}
    (h : analyzeGlobal f s = .ok (o, s')) :
    Base s' ∧ s'.next = s.next + f.params.length + count f.body ∧
      (∀ i ∈ s.heap, i ∈ s'.heap) ∧
      (o.Captures 128 →
        o.reads [] = meanings [numbered s.next f.params []] (s.next + f.params.length) f.body ∧
        ∀ i ∈ o.captured, i ∈ s'.heap) := by
  obtain ⟨r, h1, h⟩ := bind_ok h
  obtain ⟨s2, h2, h3⟩ := bind_ok h
  cases h3
  obtain ⟨g0, d0, n0⟩ := globalStart_good (ps := f.params) hb
  have hd : 1 + nesting f.body < 256 := by have := hp.nesting; omega
  obtain ⟨f2, fs2, g2, l2, n2⟩ := analyze_later f.body g0 hd hp.lambda hp.const hp.shallow h1
  obtain ⟨new, e, hnew⟩ := l2.locals
  dsimp only at e hnew
  obtain ⟨s3, e3, g3, n3⟩ := endScope_good g2 (d := 0) l2.depth (by omega)
    (new := new ++ paramLocals s.next 1 f.params []) (old := []) (by rw [e]; simp)
    (by
      intro l hl
      rcases List.mem_append.1 hl with h | h
      · exact hnew l h
      · exact d0 l h) (by simp)
  rw [e3] at h2
  injection h2 with h2
  subst h2
  have hloc : ∀ g ∈ (⟨[], 0, f2.frees⟩ :: fs2 : List Frame), g.locals = [] := by
    intro g hg
    rcases List.mem_cons.1 hg with rfl | hg
    · rfl
    · obtain ⟨a, ha, hea⟩ := grow_mem l2.around hg
      rw [hea]; exact (hb a ha).1
  have hfree := weak_base hloc g3.weak
  have hbase : Base s3 := by
    intro g hg
    rw [g3.frames] at hg
    exact ⟨hloc g hg, hfree g hg⟩
  have hfree2 : ∀ g ∈ f2 :: fs2, g.frees = [] := by
    intro g hg
    rcases List.mem_cons.1 hg with rfl | hg
    · exact hfree ⟨[], 0, g.frees⟩ (List.mem_cons_self ..)
    · exact hfree g (List.mem_cons_of_mem _ hg)
  have hnil : ∀ g ∈ (⟨paramLocals s.next 1 f.params [], 1, []⟩ :: s.frames : List Frame),
      g.frees = [] := by
    intro g hg
    rcases List.mem_cons.1 hg with rfl | hg
    · rfl
    · exact (hb g hg).2
  have hsm : Small r.2.frames := by rw [g2.frames]; exact base_small hfree2
  obtain ⟨e1, e2, e4, e5⟩ := endScope_heap g2.frames e3
  obtain ⟨m1, m2, m3, m4⟩ := beginScope_heap (s := enter s) rfl
  obtain ⟨a1, a2, a3⟩ := addParams_heap f.params m4
  have hheap : (addParams f.params (beginScope (enter s))).heap = s.heap := by
    rw [a2, m2]; rfl
  have hmk : MarkedOk (addParams f.params (beginScope (enter s))).frames
      (addParams f.params (beginScope (enter s))).marked := by
    rw [g0.frames]
    intro g hg e he
    rw [hnil g hg] at he
    cases he
  refine ⟨hbase, by rw [n3, n2, n0], ?_, ?_⟩
  · intro i hi
    exact endScope_heap' e3 i (analyze_mono f.body h1 i (by rw [hheap]; exact hi))
  · intro hcap
    obtain ⟨_, r2⟩ := analyze_reads f.body g0 hd hp.lambda hp.const hp.shallow h1 (base_frees hnil)
      hsm hcap
    obtain ⟨_, _, i3, i4⟩ := analyze_heap f.body g0 hd hp.lambda hp.const hp.shallow h1
      (base_frees hnil) hsm hcap hmk
    refine ⟨?_, ?_⟩
    · rw [r2 [] (by rw [g2.frames]; exact base_ext hfree2), n0, List.map_cons]
      have := meanings_dead f.body (v := vis ⟨paramLocals s.next 1 f.params [], 1, []⟩) (vs := [])
        (n := s.next + f.params.length) (base_vis fun g hg => (hb g hg).1)
      rw [List.cons_append, List.nil_append] at this
      rw [this]
      unfold vis
      dsimp only
      rw [paramLocals_vis hp.params]
      rfl
    · intro i hi
      rcases i4 i hi with h | h
      · exact e2 i h
      · rcases e4 i h with h | h
        · exact h
        · obtain ⟨_, g, hg, l, hl, _⟩ := h
          rw [(hbase g hg).1] at hl
          cases hl

theorem analyzeAll_spec {p : List Fun} (hp : ∀ f ∈ p, Plain f) : ∀ {s : State}, Base s →
    ∀ {os : List Out} {s' : State}, analyzeAll p s = .ok (os, s') →
    (∀ o ∈ os, o.Captures 128) →
    os.map (Out.reads []) = programMeanings s.next p ∧ (∀ i ∈ s.heap, i ∈ s'.heap) ∧
      ∀ o ∈ os, ∀ i ∈ o.captured, i ∈ s'.heap := by
  induction p with
  | nil =>
    intro s _ os s' h _
    cases h
    exact ⟨rfl, fun _ h => h, fun o ho => by cases ho⟩
  | cons f p ih =>
    intro s hb os s' h hcap
    obtain ⟨r, h1, h⟩ := bind_ok h
    obtain ⟨q, h2, h3⟩ := bind_ok h
    cases h3
    obtain ⟨b1, b2, b3, b4⟩ := analyzeGlobal_spec (hp f (List.mem_cons_self ..)) hb h1
    obtain ⟨c1, c2⟩ := b4 (hcap _ (List.mem_cons_self ..))
    obtain ⟨i1, i2, i3⟩ := ih (fun g hg => hp g (List.mem_cons_of_mem _ hg)) b1 h2
      (fun o ho => hcap o (List.mem_cons_of_mem _ ho))
    refine ⟨?_, fun i hi => i2 i (b3 i hi), ?_⟩
    · rw [List.map_cons, programMeanings, c1, i1, b2]
    · intro o ho
      rcases List.mem_cons.1 ho with rfl | ho
      · exact fun i hi => i2 i (c2 i hi)
      · exact i3 o ho

theorem analyzeAll_accepts {p : List Fun} (hp : ∀ f ∈ p, Plain f) : ∀ {s : State}, Base s →
    ((∃ os s', analyzeAll p s = .ok (os, s')) ↔ ∀ f ∈ p, Distinct f.params f.body) := by
  induction p with
  | nil => intro s _; exact ⟨fun _ f hf => (by cases hf), fun _ => ⟨[], s, rfl⟩⟩
  | cons f p ih =>
    intro s hb
    have hf := hp f (List.mem_cons_self ..)
    obtain ⟨g0, d0, n0⟩ := globalStart_good (ps := f.params) hb
    have hd : 1 + nesting f.body < 256 := by have := hf.nesting; omega
    rcases analyze_accepts f.body (here := f.params) g0 Nat.one_pos hd hf.lambda hf.const hf.shallow
      (by
        intro y _
        dsimp only
        rw [redeclaredIn_params]
        simp [redeclaredIn]) with ⟨h1, o, t, h2⟩ | ⟨h1, h2⟩
    · obtain ⟨f2, fs2, g2, l2, n2⟩ := analyze_later f.body g0 hd hf.lambda hf.const hf.shallow h2
      obtain ⟨new, e, hnew⟩ := l2.locals
      dsimp only at e hnew
      obtain ⟨s3, e3, g3, n3⟩ := endScope_good g2 (d := 0) l2.depth (by omega)
        (new := new ++ paramLocals s.next 1 f.params []) (old := []) (by rw [e]; simp)
        (by
          intro l hl
          rcases List.mem_append.1 hl with h | h
          · exact hnew l h
          · exact d0 l h) (by simp)
      have hglob : analyzeGlobal f s = .ok (o, s3) := by
        unfold analyzeGlobal
        rw [h2]
        simp only [Res.bind, e3]
      have hb3 := (analyzeGlobal_spec hf hb hglob).1
      have := ih (fun g hg => hp g (List.mem_cons_of_mem _ hg)) hb3
      constructor
      · rintro ⟨os, s', h⟩
        rw [analyzeAll, hglob] at h
        obtain ⟨q, h4, _⟩ := bind_ok (a := analyzeAll p s3) h
        intro g hg
        rcases List.mem_cons.1 hg with rfl | hg
        · exact h1
        · exact this.1 ⟨q.1, q.2, h4⟩ g hg
      · intro h
        obtain ⟨os, s', h4⟩ := this.2 (fun g hg => h g (List.mem_cons_of_mem _ hg))
        refine ⟨o :: os, s', ?_⟩
        rw [analyzeAll, hglob]
        simp only [Res.bind, h4]
    · constructor
      · rintro ⟨os, s', h⟩
        have : analyzeGlobal f s = .redeclared := by
          unfold analyzeGlobal; rw [h2]; rfl
        rw [analyzeAll, this] at h
        cases h
      · intro h
        exact absurd (h f (List.mem_cons_self ..)) h1

end Nature.Capture
