import Verif.Capture.Main

namespace Nature.Capture

/-! ## Captured variables are marked, and marked variables go to the heap -/

/-- The variables captured directly have been marked. -/
def MarkedOk (fs : List Frame) (marked : List Nat) : Prop :=
  ∀ f ∈ fs, ∀ e ∈ f.frees, e.isLocal = true → e.id ∈ marked

theorem MarkedOk.head {f f' : Frame} {fs : List Frame} {m : List Nat} (he : f'.frees = f.frees)
    (h : MarkedOk (f :: fs) m) : MarkedOk (f' :: fs) m := by
  intro a ha
  rcases List.mem_cons.1 ha with rfl | ha
  · rw [he]; exact h f (List.mem_cons_self ..)
  · exact h a (List.mem_cons_of_mem _ ha)

theorem resolveFree_marked {x : Name} (fs : List Frame) {m : List Nat} (hm : MarkedOk fs m) :
    (∀ h, (resolveFree x fs).2 = some h → MarkedOk (resolveFree x fs).1 (h.id :: m)) ∧
      ((resolveFree x fs).2 = none → MarkedOk (resolveFree x fs).1 m) := by
  have weaken : ∀ (gs : List Frame) (i : Nat), MarkedOk gs m → MarkedOk gs (i :: m) :=
    fun gs i h f hf e he hl => List.mem_cons_of_mem _ (h f hf e he hl)
  induction fs with
  | nil =>
    unfold resolveFree
    exact ⟨fun h e => (by simp at e), fun _ => hm⟩
  | cons f ps ih =>
    cases ps with
    | nil =>
      unfold resolveFree
      exact ⟨fun h e => (by simp at e), fun _ => hm⟩
    | cons p rest =>
      replace ih := ih (fun a ha => hm a (List.mem_cons_of_mem _ ha))
      have push : ∀ (b : Bool) (i id : Nat) (k : Kind) (gs : List Frame), MarkedOk gs (id :: m) →
          MarkedOk ((pushFree f b i id k).1 :: gs) (id :: m) := by
        intro b i id k gs hgs a ha e he hl
        rcases List.mem_cons.1 ha with rfl | ha
        · rcases (pushFree_spec f b i id k).2.2 e he with h | h
          · exact List.mem_cons_of_mem _ (hm f (List.mem_cons_self ..) e h hl)
          · rw [h]; exact List.mem_cons_self ..
        · exact hgs a ha e he hl
      have keep : ∀ (gs : List Frame) (m' : List Nat), (∀ i ∈ m, i ∈ m') → MarkedOk gs m' →
          MarkedOk (f :: gs) m' := by
        intro gs m' hsub hgs a ha e he hl
        rcases List.mem_cons.1 ha with rfl | ha
        · exact hsub _ (hm _ (List.mem_cons_self ..) e he hl)
        · exact hgs a ha e he hl
      unfold resolveFree
      cases hl : lookup x p.locals with
      | some l =>
        simp only [hl]
        split
        · refine ⟨fun h e => ?_, fun e => by simp at e⟩
          exact weaken _ _ hm
        · refine ⟨fun h e => ?_, fun e => by simp at e⟩
          simp only [Option.some.injEq] at e
          subst e
          exact push _ _ _ _ _ (weaken _ _ (fun a ha => hm a (List.mem_cons_of_mem _ ha)))
      | none =>
        simp only [hl]
        generalize resolveFree x (p :: rest) = r at ih
        obtain ⟨ps', o⟩ := r
        cases o with
        | none =>
          exact ⟨fun h e => (by simp at e), fun _ => keep _ _ (fun _ h => h) (ih.2 rfl)⟩
        | some hit =>
          dsimp only at ih ⊢
          split
          · refine ⟨fun h e => ?_, fun e => by simp at e⟩
            simp only [Option.some.injEq] at e
            subst e
            exact push _ _ _ _ _ (ih.1 hit rfl)
          · refine ⟨fun h e => ?_, fun e => by simp at e⟩
            simp only [Option.some.injEq] at e
            subst e
            exact keep _ _ (fun _ h => List.mem_cons_of_mem _ h) (ih.1 hit rfl)

theorem ident_marked {x : Name} {s : State} (hm : MarkedOk s.frames s.marked) :
    MarkedOk (ident x s).2.frames (ident x s).2.marked ∧
      (∀ i ∈ s.marked, i ∈ (ident x s).2.marked) ∧ (ident x s).2.heap = s.heap := by
  obtain ⟨n, m, hp, frames⟩ := s
  cases frames with
  | nil => exact ⟨hm, fun _ h => h, rfl⟩
  | cons f fs =>
    have hw := resolveFree_marked (x := x) (f :: fs) hm
    simp only [ident] at *
    cases hl : lookup x f.locals with
    | some l => exact ⟨hm, fun _ h => h, rfl⟩
    | none =>
      simp only [hl] at *
      generalize resolveFree x (f :: fs) = r at *
      obtain ⟨ps, o⟩ := r
      cases o with
      | none => exact ⟨hw.2 rfl, fun _ h => h, rfl⟩
      | some h => exact ⟨hw.1 h rfl, fun _ h => List.mem_cons_of_mem _ h, rfl⟩

/-- What is left to be moved to the heap at the end of its block. -/
def Pending (fs : List Frame) (marked : List Nat) (id : Nat) : Prop :=
  id ∈ marked ∧ ∃ g ∈ fs, ∃ l ∈ g.locals, l.id = id ∧ l.kind = .var

theorem popLocals_heap {d : Nat} {marked : List Nat} {ls ls' : List Local} {heap heap' : List Nat}
    (h : popLocals d marked ls heap = .ok (ls', heap')) :
    (∀ i ∈ heap, i ∈ heap') ∧
      ∀ l ∈ ls, l.kind = .var → l.id ∈ marked → l.id ∈ heap' ∨ l ∈ ls' := by
  induction ls generalizing heap with
  | nil => cases h; exact ⟨fun _ h => h, fun l hl => by cases hl⟩
  | cons a ls ih =>
    rw [popLocals] at h
    split at h
    · cases h
      exact ⟨fun _ h => h, fun l hl _ _ => Or.inr hl⟩
    · split at h
      · split at h
        · obtain ⟨h1, h2⟩ := ih h
          refine ⟨fun i hi => h1 i (List.mem_cons_of_mem _ hi), ?_⟩
          intro l hl hk hm
          rcases List.mem_cons.1 hl with rfl | hl
          · exact Or.inl (h1 _ (List.mem_cons_self ..))
          · exact h2 l hl hk hm
        · cases h
      · next hn =>
        obtain ⟨h1, h2⟩ := ih h
        refine ⟨h1, ?_⟩
        intro l hl hk hm
        rcases List.mem_cons.1 hl with rfl | hl
        · exact absurd ⟨hm, by rw [hk]; decide⟩ hn
        · exact h2 l hl hk hm

theorem endScope_heap {s s' : State} {f : Frame} {fs : List Frame} (hf : s.frames = f :: fs)
    (h : endScope s = .ok s') :
    s'.marked = s.marked ∧ (∀ i ∈ s.heap, i ∈ s'.heap) ∧
      (∀ id, Pending s.frames s.marked id → id ∈ s'.heap ∨ Pending s'.frames s'.marked id) ∧
      (∀ m, MarkedOk s.frames m → MarkedOk s'.frames m) := by
  unfold endScope at h
  rw [hf] at h
  obtain ⟨r, h1, h2⟩ := bind_ok h
  cases h2
  obtain ⟨ls', hp⟩ := r
  obtain ⟨p1, p2⟩ := popLocals_heap h1
  refine ⟨rfl, p1, ?_, ?_⟩
  · rintro id ⟨hm, g, hg, l, hl, rfl, hk⟩
    rw [hf] at hg
    rcases List.mem_cons.1 hg with rfl | hg
    · rcases p2 l hl hk hm with h | h
      · exact Or.inl h
      · exact Or.inr ⟨hm, _, List.mem_cons_self .., l, h, rfl, hk⟩
    · exact Or.inr ⟨hm, g, List.mem_cons_of_mem _ hg, l, hl, rfl, hk⟩
  · intro m hm
    rw [hf] at hm
    exact MarkedOk.head (f := f) rfl hm

theorem localNew_heap (k : Kind) (x : Name) {s : State} {f : Frame} {fs : List Frame}
    (hf : s.frames = f :: fs) :
    (localNew k x s).marked = s.marked ∧ (localNew k x s).heap = s.heap ∧
      (∀ m, MarkedOk s.frames m → MarkedOk (localNew k x s).frames m) ∧
      (localNew k x s).frames = { f with locals := ⟨x, s.next, k, f.depth⟩ :: f.locals } :: fs := by
  rw [localNew_eq k x hf]
  refine ⟨rfl, rfl, fun m hm => ?_, rfl⟩
  rw [hf] at hm
  exact MarkedOk.head (f := f) rfl hm

theorem beginScope_heap {s : State} {f : Frame} {fs : List Frame} (hf : s.frames = f :: fs) :
    (beginScope s).marked = s.marked ∧ (beginScope s).heap = s.heap ∧
      (∀ m, MarkedOk s.frames m → MarkedOk (beginScope s).frames m) ∧
      (beginScope s).frames = { f with depth := (f.depth + 1) % 256 } :: fs := by
  unfold beginScope
  rw [hf]
  exact ⟨rfl, rfl, fun m hm => MarkedOk.head (f := f) rfl hm, rfl⟩

theorem addParams_heap (ps : List Name) {s : State} {f : Frame} {fs : List Frame}
    (hf : s.frames = f :: fs) :
    (addParams ps s).marked = s.marked ∧ (addParams ps s).heap = s.heap ∧
      (∀ m, MarkedOk s.frames m → MarkedOk (addParams ps s).frames m) := by
  induction ps generalizing s f with
  | nil => exact ⟨rfl, rfl, fun _ h => h⟩
  | cons p ps ih =>
    obtain ⟨a, b, c, d⟩ := localNew_heap .var p hf
    obtain ⟨a', b', c'⟩ := ih d
    exact ⟨a'.trans a, b'.trans b, fun m hm => c' m (c m hm)⟩

theorem literalStart_heap (ps : List Name) {s : State} :
    (literalStart ps s).marked = s.marked ∧ (literalStart ps s).heap = s.heap ∧
      (∀ m, MarkedOk s.frames m → MarkedOk (literalStart ps s).frames m) := by
  obtain ⟨a, b, c, d⟩ := localNew_heap (s := enter s) .fn .lambda rfl
  obtain ⟨a', b', c', d'⟩ := beginScope_heap d
  obtain ⟨a2, b2, c2⟩ := addParams_heap ps d'
  refine ⟨a2.trans (a'.trans a), b2.trans (b'.trans b), fun m hm => c2 m (c' m (c m ?_))⟩
  intro g hg
  rcases List.mem_cons.1 hg with rfl | hg
  · intro e he; simp at he
  · exact hm g hg

theorem grow_locals {fs gs : List Frame} (hg : GrowAll fs gs) {f : Frame} (h : f ∈ fs) :
    ∃ g ∈ gs, g.locals = f.locals := by
  induction fs generalizing gs with
  | nil => cases h
  | cons a fs ih =>
    obtain ⟨g', gs', rfl, h1, h2⟩ := hg.cons_left
    rcases List.mem_cons.1 h with rfl | h
    · exact ⟨g', List.mem_cons_self .., h1.1⟩
    · obtain ⟨g, hg, he⟩ := ih h2 h
      exact ⟨g, List.mem_cons_of_mem _ hg, he⟩

theorem Later.pending {f f' : Frame} {fs fs' : List Frame} (h : Later f fs f' fs')
    {m m' : List Nat} (hm : ∀ i ∈ m, i ∈ m') {id : Nat} (hp : Pending (f :: fs) m id) :
    Pending (f' :: fs') m' id := by
  obtain ⟨h1, g, hg, l, hl, h2⟩ := hp
  refine ⟨hm id h1, ?_⟩
  rcases List.mem_cons.1 hg with rfl | hg
  · obtain ⟨new, e, _⟩ := h.locals
    exact ⟨f', List.mem_cons_self .., l, by rw [e]; exact List.mem_append_right _ hl, h2⟩
  · obtain ⟨g', hg', e⟩ := grow_locals h.around hg
    exact ⟨g', List.mem_cons_of_mem _ hg', l, by rw [e]; exact hl, h2⟩

theorem leave_heap (id : Nat) (caps : List Cap) {s : State} {c g : Frame} {gs : List Frame}
    (hf : s.frames = c :: g :: gs) :
    (leave id caps s).marked = s.marked ∧ (leave id caps s).heap = s.heap ∧
      ∀ m, MarkedOk s.frames m → MarkedOk (leave id caps s).frames m := by
  unfold leave
  rw [hf]
  refine ⟨rfl, rfl, fun m hm => ?_⟩
  exact MarkedOk.head (f := g) rfl (fun a ha => hm a (List.mem_cons_of_mem _ ha))

/-- Every captured variable is on the heap, or will be when its block ends. -/
theorem analyze_heap (c : Code) : ∀ {s : State} {f : Frame} {fs : List Frame} {out : Out}
    {s' : State}, Good s f fs → f.depth + nesting c < 256 → NoLambda c → NoConst c → Shallow c →
    analyze c s = .ok (out, s') → FreesOk (f :: fs) → Small s'.frames → out.Captures 128 →
    MarkedOk s.frames s.marked →
    MarkedOk s'.frames s'.marked ∧ (∀ i ∈ s.marked, i ∈ s'.marked) ∧ (∀ i ∈ s.heap, i ∈ s'.heap) ∧
      ∀ id ∈ out.captured, id ∈ s'.heap ∨ Pending s'.frames s'.marked id := by
  induction c with
  | nil =>
    intro s f fs out s' hg _ _ _ _ h hf _ _ hm
    cases h
    exact ⟨hm, fun _ h => h, fun _ h => h, fun id h => by cases h⟩
  | use x k ih =>
    intro s f fs out s' hg hd hl hc hs h hf hsm hcap hm
    obtain ⟨q, h1, h2⟩ := bind_ok h
    cases h2
    obtain ⟨f1, fs1, g1, l1, gr1, n1⟩ := ident_good hl.1 hg
    obtain ⟨f2, fs2, g2, l2, n2⟩ := analyze_later k g1 (by rw [l1.depth]; exact hd) hl.2 hc hs h1
    have hsm1 : Small (ident x s).2.frames := by
      rw [g1.frames]; exact l2.small (g2.frames ▸ hsm)
    have hf1 : FreesOk (f1 :: fs1) := by
      rw [← g1.frames]
      exact ident_frees hl.1 (hg.frames ▸ hg.kinds) (hg.frames ▸ hf) hsm1
    obtain ⟨m1, m2, m3⟩ := ident_marked (x := x) hm
    obtain ⟨i1, i2, i3, i4⟩ := ih g1 (by rw [l1.depth]; exact hd) hl.2 hc hs h1 hf1 hsm hcap m1
    exact ⟨i1, fun i hi => i2 i (m2 i hi), fun i hi => i3 i (m3 ▸ hi), i4⟩
  | decl x k ih =>
    intro s f fs out s' hg hd hl hc hs h hf hsm hcap hm
    rw [analyze] at h
    split at h
    · cases h
    obtain ⟨q, h1, h2⟩ := bind_ok h
    cases h2
    obtain ⟨g1, l1⟩ := localNew_good (k := .var) (x := x) hg (by decide) (fun _ => rfl)
    obtain ⟨m1, m2, m3, _⟩ := localNew_heap .var x hg.frames
    obtain ⟨i1, i2, i3, i4⟩ := ih g1 hd hl.2 hc hs h1 (FreesOk.head (f := f) rfl hf) hsm hcap
      (m1 ▸ m3 _ hm)
    exact ⟨i1, fun i hi => i2 i (m1 ▸ hi), fun i hi => i3 i (m2 ▸ hi), i4⟩
  | const x k ih => intro s f fs out s' _ _ _ hc; exact hc.elim
  | block b k ihb ihk =>
    intro s f fs out s' hg hd hl hc hs h hf hsm hcap hm
    rw [nesting] at hd
    have hd1 : f.depth + 1 < 256 := by omega
    obtain ⟨r, h1, h⟩ := bind_ok h
    obtain ⟨s2, h2, h⟩ := bind_ok h
    obtain ⟨q, h3, h4⟩ := bind_ok h
    cases h4
    have gb := beginScope_good hg hd1
    have db : ({ f with depth := f.depth + 1 } : Frame).depth + nesting b < 256 := by
      show f.depth + 1 + _ < _; omega
    obtain ⟨f2, fs2, g2, l2, n2⟩ := analyze_later b gb db hl.1 hc.1 hs.1 h1
    have n2' := n2
    rw [beginScope_next] at n2'
    obtain ⟨s3, e3, g3, l3, n3⟩ := block_step hg hd1 g2 l2 n2'
    rw [e3] at h2
    cases h2
    have dk : f.depth + nesting k < 256 := by omega
    obtain ⟨f4, fs4, g4, l4, n4⟩ := analyze_later k g3 dk hl.2 hc.2 hs.2 h3
    have hsm3 : Small (⟨f.locals, f.depth, f2.frees⟩ :: fs2) := l4.small (g4.frames ▸ hsm)
    have hsm2 : Small r.2.frames := by
      rw [g2.frames]; exact Small.head (f := ⟨f.locals, f.depth, f2.frees⟩) rfl hsm3
    obtain ⟨b1, _⟩ := analyze_reads b gb db hl.1 hc.1 hs.1 h1 (FreesOk.head (f := f) rfl hf) hsm2
      hcap.1
    have b1' : FreesOk (f2 :: fs2) := g2.frames ▸ b1
    obtain ⟨m1, m2, m3, _⟩ := beginScope_heap hg.frames
    obtain ⟨i1, i2, i3, i4⟩ := ihb gb db hl.1 hc.1 hs.1 h1 (FreesOk.head (f := f) rfl hf) hsm2
      hcap.1 (m1 ▸ m3 _ hm)
    obtain ⟨e1, e2, e4, e5⟩ := endScope_heap g2.frames e3
    obtain ⟨j1, j2, j3, j4⟩ := ihk g3 dk hl.2 hc.2 hs.2 h3
      (FreesOk.head (f := f2) rfl b1') hsm hcap.2 (e1 ▸ e5 _ i1)
    refine ⟨j1, fun i hi => j2 i (e1 ▸ i2 i (m1 ▸ hi)), fun i hi => j3 i (e2 i (i3 i (m2 ▸ hi))), ?_⟩
    intro id hid
    rcases List.mem_append.1 hid with hid | hid
    · rcases i4 id hid with hid | hid
      · exact Or.inl (j3 id (e2 id hid))
      · rcases e4 id hid with hid | hid
        · exact Or.inl (j3 id hid)
        · refine Or.inr ?_
          rw [g4.frames]
          exact l4.pending j2 (g3.frames ▸ hid)
    · exact j4 id hid
  | fn ps b k ihb ihk =>
    intro s f fs out s' hg hd hl hc hs h hf hsm hcap hm
    obtain ⟨r, h1, h⟩ := bind_ok h
    obtain ⟨s2, h2, h⟩ := bind_ok h
    obtain ⟨q, h3, h4⟩ := bind_ok h
    cases h4
    obtain ⟨new, g1, p1, d1, n1⟩ := literalStart_good (ps := ps) hg
    have db : 1 + nesting b < 256 := by have := hs.1; omega
    obtain ⟨c, gs, g2, l2, n2⟩ := analyze_later b g1 db hl.2.1 hc.1 hs.2.1 h1
    rw [n1] at n2
    obtain ⟨s3, e3, hfr, ec, f', fs', g3, l3, n3, v3, a3, gs3, kk, loc3⟩ := fn_step hg d1 g2 l2 n2
    rw [e3] at h2
    cases h2
    rw [ec] at h3
    have dk : f'.depth + nesting k < 256 := by rw [l3.depth]; exact hd
    obtain ⟨f4, fs4, g4, l4, n4⟩ := analyze_later k g3 dk hl.2.2 hc.2 hs.2.2 h3
    have hsm3 : Small (f' :: fs') := l4.small (g4.frames ▸ hsm)
    have hsmg : Small gs := by rw [gs3]; exact Small.head (f := f') rfl hsm3
    have hcap1 := hcap.1
    rw [ec, captures_length (g2.kinds c (List.mem_cons_self ..)).2] at hcap1
    have hsm2 : Small r.2.frames := by
      rw [g2.frames]
      intro a ha
      rcases List.mem_cons.1 ha with rfl | ha
      · exact hcap1
      · exact hsmg a ha
    obtain ⟨b1, _⟩ := analyze_reads b g1 db hl.2.1 hc.1 hs.2.1 h1 ⟨by simp, hf⟩ hsm2 hcap.2.1
    rw [g2.frames] at b1
    have b1' : FreesOk ({ f' with locals := f.locals } :: fs') := gs3 ▸ b1.2
    obtain ⟨m1, m2, m3⟩ := literalStart_heap ps (s := s)
    obtain ⟨i1, i2, i3, i4⟩ := ihb g1 db hl.2.1 hc.1 hs.2.1 h1 ⟨by simp, hf⟩ hsm2 hcap.2.1
      (m1 ▸ m3 _ hm)
    obtain ⟨e1, e2, e4, e5⟩ := endScope_heap g2.frames e3
    have hfr3 := hfr
    rw [gs3] at hfr3
    obtain ⟨v1, v2, v4⟩ := leave_heap s.next (captures c.frees) hfr3
    obtain ⟨j1, j2, j3, j4⟩ := ihk g3 dk hl.2.2 hc.2 hs.2.2 h3
      (FreesOk.head (f := { f' with locals := f.locals }) rfl b1') hsm hcap.2.2
      (by rw [v1, e1]; exact v4 _ (e5 _ i1))
    have mk : ∀ i ∈ r.2.marked, i ∈ q.2.marked := fun i hi => j2 i (by rw [v1, e1]; exact hi)
    have hk : ∀ i ∈ s2.heap, i ∈ q.2.heap := fun i hi => j3 i (by rw [v2]; exact hi)
    have hin : ∀ l ∈ f.locals, l ∈ f4.locals := by
      intro l hl'
      obtain ⟨n5, e6, _⟩ := (l3.trans l4).locals
      rw [e6]; exact List.mem_append_right _ hl'
    refine ⟨j1, fun i hi => mk i (i2 i (m1 ▸ hi)), fun i hi => hk i (e2 i (i3 i (m2 ▸ hi))), ?_⟩
    intro id hid
    rcases List.mem_append.1 hid with hid | hid
    · rcases List.mem_append.1 hid with hid | hid
      · -- captured by this literal
        rw [ec, captures_eq (g2.kinds c (List.mem_cons_self ..)).2] at hid
        obtain ⟨cap, hcap', he⟩ := List.mem_filterMap.1 hid
        obtain ⟨e, he', rfl⟩ := List.mem_map.1 hcap'
        by_cases hloc : e.isLocal = true
        · rw [if_pos hloc] at he
          simp only [Option.some.injEq] at he
          subst he
          have hat := b1.1 e he'
          rw [gs3] at hat
          simp only [FreeAt, if_pos hloc] at hat
          obtain ⟨l, hl1, hl2, hl3⟩ := hat
          refine Or.inr ⟨mk _ (i1 c (by rw [g2.frames]; exact List.mem_cons_self ..) e he' hloc), ?_⟩
          rw [g4.frames]
          exact ⟨f4, List.mem_cons_self .., l, hin l hl1, hl2, hl3⟩
        · rw [if_neg hloc] at he
          simp at he
      · rcases i4 id hid with hid | hid
        · exact Or.inl (hk id (e2 id hid))
        · rcases e4 id hid with hid | hid
          · exact Or.inl (hk id hid)
          · refine Or.inr ?_
            rw [g4.frames]
            obtain ⟨q1, g, q2, l, q3, q4, q5⟩ := hid
            rw [e1] at q1
            refine ⟨mk id q1, ?_⟩
            rw [hfr] at q2
            rcases List.mem_cons.1 q2 with rfl | q2
            · rw [List.mem_singleton] at q3
              rw [q3] at q5
              cases q5
            · rw [gs3] at q2
              rcases List.mem_cons.1 q2 with rfl | q2
              · exact ⟨f4, List.mem_cons_self .., l, hin l q3, q4, q5⟩
              · obtain ⟨g', w1, w2⟩ := grow_locals l4.around q2
                exact ⟨g', List.mem_cons_of_mem _ w1, l, by rw [w2]; exact q3, q4, q5⟩
    · exact j4 id hid

/-! ## Nothing leaves the heap -/

theorem ident_heap (x : Name) (s : State) : (ident x s).2.heap = s.heap := by
  unfold ident
  split
  · rfl
  · split
    · rfl
    · split <;> rfl

theorem localNew_heap' (k : Kind) (x : Name) (s : State) : (localNew k x s).heap = s.heap := by
  unfold localNew; split <;> rfl

theorem beginScope_heap' (s : State) : (beginScope s).heap = s.heap := by
  unfold beginScope; split <;> rfl

theorem addParams_heap' (ps : List Name) (s : State) : (addParams ps s).heap = s.heap := by
  induction ps generalizing s with
  | nil => rfl
  | cons p ps ih => rw [addParams, ih, localNew_heap']

theorem leave_heap' (id : Nat) (caps : List Cap) (s : State) :
    (leave id caps s).heap = s.heap := by
  unfold leave; split <;> rfl

theorem endScope_heap' {s s' : State} (h : endScope s = .ok s') : ∀ i ∈ s.heap, i ∈ s'.heap := by
  cases hf : s.frames with
  | nil =>
    unfold endScope at h
    rw [hf] at h
    cases h
    exact fun _ h => h
  | cons f fs => exact (endScope_heap hf h).2.1

theorem analyze_mono (c : Code) : ∀ {s : State} {out : Out} {s' : State},
    analyze c s = .ok (out, s') → ∀ i ∈ s.heap, i ∈ s'.heap := by
  induction c with
  | nil => intro s out s' h; cases h; exact fun _ h => h
  | use x k ih =>
    intro s out s' h i hi
    obtain ⟨q, h1, h2⟩ := bind_ok h
    cases h2
    exact ih h1 i (by rw [ident_heap]; exact hi)
  | decl x k ih =>
    intro s out s' h i hi
    rw [analyze] at h
    split at h
    · cases h
    obtain ⟨q, h1, h2⟩ := bind_ok h
    cases h2
    exact ih h1 i (by rw [localNew_heap']; exact hi)
  | const x k ih =>
    intro s out s' h i hi
    obtain ⟨q, h1, h2⟩ := bind_ok h
    cases h2
    exact ih h1 i (by rw [localNew_heap']; exact hi)
  | block b k ihb ihk =>
    intro s out s' h i hi
    obtain ⟨r, h1, h⟩ := bind_ok h
    obtain ⟨s2, h2, h⟩ := bind_ok h
    obtain ⟨q, h3, h4⟩ := bind_ok h
    cases h4
    exact ihk h3 i (endScope_heap' h2 i (ihb h1 i (by rw [beginScope_heap']; exact hi)))
  | fn ps b k ihb ihk =>
    intro s out s' h i hi
    obtain ⟨r, h1, h⟩ := bind_ok h
    obtain ⟨s2, h2, h⟩ := bind_ok h
    obtain ⟨q, h3, h4⟩ := bind_ok h
    cases h4
    refine ihk h3 i ?_
    rw [leave_heap']
    refine endScope_heap' h2 i (ihb h1 i ?_)
    rw [addParams_heap', beginScope_heap']
    unfold selfLocal
    rw [localNew_heap']
    exact hi

end Nature.Capture
