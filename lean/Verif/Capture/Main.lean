import Verif.Capture.Run

namespace Nature.Capture

theorem bind_ok {α β : Type} {a : Res α} {g : α → Res β} {b : β} (h : a.bind g = .ok b) :
    ∃ x, a = .ok x ∧ g x = .ok b := by
  cases a with
  | ok x => exact ⟨x, rfl, h⟩
  | redeclared => cases h
  | abort => cases h

/-! ## The pieces of a step -/

/-- A block, up to its end. -/
theorem block_step {b : Code} {s : State} {f : Frame} {fs : List Frame} (hg : Good s f fs)
    (hd : f.depth + 1 < 256) {t : State} {f2 : Frame} {fs2 : List Frame} (hg2 : Good t f2 fs2)
    (hl : Later { f with depth := f.depth + 1 } fs f2 fs2) (hn : t.next = s.next + count b) :
    ∃ s2, endScope t = .ok s2 ∧ Good s2 ⟨f.locals, f.depth, f2.frees⟩ fs2 ∧
      Later f fs ⟨f.locals, f.depth, f2.frees⟩ fs2 ∧ s2.next = s.next + count b := by
  obtain ⟨new, e, hnew⟩ := hl.locals
  obtain ⟨s2, h1, h2, h3⟩ := endScope_good hg2 (d := f.depth) hl.depth hd e hnew hg.depth
  exact ⟨s2, h1, h2, ⟨rfl, ⟨[], rfl, by simp⟩, hl.frees, hl.around⟩, h3.trans hn⟩

/-- A function literal, up to its end. -/
theorem fn_step {ps : List Name} {b : Code} {s : State} {f : Frame} {fs : List Frame}
    (hg : Good s f fs) {new : List Local} (hnew : ∀ l ∈ new, l.depth = 1) {t : State} {c : Frame}
    {gs : List Frame} (hc : Good t c gs)
    (hl : Later ⟨new ++ [⟨.lambda, s.next, .fn, 0⟩], 1, []⟩ (f :: fs) c gs)
    (hn : t.next = s.next + 1 + ps.length + count b) :
    ∃ s2, endScope t = .ok s2 ∧ s2.frames = ⟨[⟨.lambda, s.next, .fn, 0⟩], 0, c.frees⟩ :: gs ∧
      currentCaptures t = captures c.frees ∧
      ∃ f' fs', Good (leave s.next (captures c.frees) s2) f' fs' ∧ Later f fs f' fs' ∧
        (leave s.next (captures c.frees) s2).next = s.next + 1 + ps.length + count b ∧
        vis f' = vis f ∧ GrowAll fs fs' ∧ gs = { f' with locals := f.locals } :: fs' ∧
        (∃ k, f'.locals = ⟨.lambda, s.next, k, f.depth⟩ :: f.locals) := by
  obtain ⟨new', e, hnew'⟩ := hl.locals
  dsimp only at e hnew'
  obtain ⟨s2, h1, h2, h3⟩ := endScope_good hc (d := 0) hl.depth (by omega)
    (new := new' ++ new) (old := [⟨.lambda, s.next, .fn, 0⟩]) (by rw [e, List.append_assoc])
    (by
      intro l hl'
      rcases List.mem_append.1 hl' with h | h
      · exact hnew' l h
      · exact hnew l h)
    (by simp)
  obtain ⟨f', fs', g1, g2, g3, g4, g5, g6, g7⟩ := leave_good hg h2 hl.around (captures c.frees)
    (by rw [h3, hn]; omega)
  refine ⟨s2, h1, h2.frames, ?_, f', fs', g1, g2, ?_, g4, g5, g6, g7⟩
  · unfold currentCaptures; rw [hc.frames]
  · rw [g3, h3, hn]

/-! ## Growth over a whole body -/

theorem analyze_later (c : Code) : ∀ {s : State} {f : Frame} {fs : List Frame} {out : Out}
    {s' : State}, Good s f fs → f.depth + nesting c < 256 → NoLambda c → NoConst c → Shallow c →
    analyze c s = .ok (out, s') →
    ∃ f' fs', Good s' f' fs' ∧ Later f fs f' fs' ∧ s'.next = s.next + count c := by
  induction c with
  | nil =>
    intro s f fs out s' hg _ _ _ _ h
    cases h
    exact ⟨f, fs, hg, Later.refl f fs, rfl⟩
  | use x k ih =>
    intro s f fs out s' hg hd hl hc hs h
    obtain ⟨q, h1, h2⟩ := bind_ok h
    cases h2
    obtain ⟨f1, fs1, g1, l1, _, n1⟩ := ident_good hl.1 hg
    obtain ⟨f2, fs2, g2, l2, n2⟩ := ih g1 (by rw [l1.depth]; exact hd) hl.2 hc hs h1
    exact ⟨f2, fs2, g2, l1.trans l2, by rw [n2, n1]; rfl⟩
  | decl x k ih =>
    intro s f fs out s' hg hd hl hc hs h
    rw [analyze] at h
    split at h
    · cases h
    obtain ⟨q, h1, h2⟩ := bind_ok h
    cases h2
    obtain ⟨g1, l1⟩ := localNew_good (k := .var) (x := x) hg (by decide) (fun _ => rfl)
    obtain ⟨f2, fs2, g2, l2, n2⟩ := ih g1 hd hl.2 hc hs h1
    refine ⟨f2, fs2, g2, l1.trans l2, ?_⟩
    rw [n2, localNew_eq _ _ hg.frames, count]
    dsimp only
    omega
  | const x k ih => intro s f fs out s' _ _ _ hc; exact hc.elim
  | block b k ihb ihk =>
    intro s f fs out s' hg hd hl hc hs h
    rw [nesting] at hd
    have hd1 : f.depth + 1 < 256 := by omega
    obtain ⟨r, h1, h⟩ := bind_ok h
    obtain ⟨s2, h2, h⟩ := bind_ok h
    obtain ⟨q, h3, h4⟩ := bind_ok h
    cases h4
    obtain ⟨f2, fs2, g2, l2, n2⟩ := ihb (beginScope_good hg hd1) (by show f.depth + 1 + _ < _; omega)
      hl.1 hc.1 hs.1 h1
    rw [beginScope_next] at n2
    obtain ⟨s3, e3, g3, l3, n3⟩ := block_step hg hd1 g2 l2 n2
    rw [e3] at h2
    cases h2
    obtain ⟨f4, fs4, g4, l4, n4⟩ := ihk g3 (by show f.depth + _ < _; omega) hl.2 hc.2 hs.2 h3
    refine ⟨f4, fs4, g4, l3.trans l4, ?_⟩
    rw [n4, n3, count]; omega
  | fn ps b k ihb ihk =>
    intro s f fs out s' hg hd hl hc hs h
    obtain ⟨r, h1, h⟩ := bind_ok h
    obtain ⟨s2, h2, h⟩ := bind_ok h
    obtain ⟨q, h3, h4⟩ := bind_ok h
    cases h4
    obtain ⟨new, g1, _, d1, n1⟩ := literalStart_good (ps := ps) hg
    obtain ⟨c, gs, g2, l2, n2⟩ := ihb g1 (by show 1 + _ < _; have := hs.1; omega)
      hl.2.1 hc.1 hs.2.1 h1
    rw [n1] at n2
    obtain ⟨s3, e3, _, ec, f', fs', g3, l3, n3, _⟩ := fn_step hg d1 g2 l2 n2
    rw [e3] at h2
    cases h2
    rw [ec] at h3
    obtain ⟨f4, fs4, g4, l4, n4⟩ := ihk g3 (by rw [l3.depth]; exact hd) hl.2.2 hc.2 hs.2.2 h3
    refine ⟨f4, fs4, g4, l3.trans l4, ?_⟩
    rw [n4, n3, count]; omega

/-! ## What the uses read -/

theorem Small.grow {fs gs : List Frame} (hg : GrowAll fs gs) (h : Small gs) : Small fs := by
  induction fs generalizing gs with
  | nil => intro f hf; cases hf
  | cons f fs ih =>
    obtain ⟨g, gs', rfl, h1, h2⟩ := hg.cons_left
    intro a ha
    rcases List.mem_cons.1 ha with rfl | ha
    · exact Nat.le_trans h1.2.2.length_le (h g (List.mem_cons_self ..))
    · exact ih h2 (small_tail h) a ha

/-- The entries of frames depend on what is captured only. -/
theorem Later.grow {f f' : Frame} {fs fs' : List Frame} (h : Later f fs f' fs') :
    GrowAll (f :: fs) ({ f' with locals := f.locals } :: fs') :=
  ⟨⟨rfl, h.depth, h.frees⟩, h.around⟩

theorem Later.small {f f' : Frame} {fs fs' : List Frame} (h : Later f fs f' fs')
    (hs : Small (f' :: fs')) : Small (f :: fs) := by
  refine Small.grow h.grow ?_
  intro a ha
  rcases List.mem_cons.1 ha with rfl | ha
  · exact hs f' (List.mem_cons_self ..)
  · exact hs a (List.mem_cons_of_mem _ ha)

theorem Ext.head {f f' : Frame} {fs : List Frame} {chain : List (List Cap)}
    (he : f'.frees = f.frees) (h : Ext (f :: fs) chain) : Ext (f' :: fs) chain := by
  cases chain with
  | nil => exact ⟨he.trans h.1, h.2⟩
  | cons c cs => exact ⟨by rw [he]; exact h.1, h.2⟩

theorem Later.ext {f f' : Frame} {fs fs' : List Frame} (h : Later f fs f' fs')
    {chain : List (List Cap)} (he : Ext (f' :: fs') chain) : Ext (f :: fs) chain :=
  Ext.grow h.grow (Ext.head (f := f') rfl he)

theorem FreesOk.head {f f' : Frame} {fs : List Frame} (he : f'.frees = f.frees)
    (h : FreesOk (f :: fs)) : FreesOk (f' :: fs) := ⟨by rw [he]; exact h.1, h.2⟩

theorem Small.head {f f' : Frame} {fs : List Frame} (he : f'.frees = f.frees)
    (h : Small (f :: fs)) : Small (f' :: fs) := by
  intro a ha
  rcases List.mem_cons.1 ha with rfl | ha
  · rw [he]; exact h f (List.mem_cons_self ..)
  · exact h a (List.mem_cons_of_mem _ ha)

theorem ident_frees {x : Name} (hx : x ≠ .lambda) {s : State} (hk : Kinds s.frames)
    (hf : FreesOk s.frames) (hs : Small (ident x s).2.frames) : FreesOk (ident x s).2.frames := by
  have hw := resolveFree_walk hx s.frames hk
  obtain ⟨n, m, hp, frames⟩ := s
  cases frames with
  | nil => trivial
  | cons f fs =>
    simp only [ident] at *
    cases hl : lookup x f.locals with
    | some l => exact hf
    | none =>
      simp only [hl] at *
      generalize resolveFree x (f :: fs) = r at *
      obtain ⟨ps, o⟩ := r
      cases o with
      | none => exact hw.frees hf hs
      | some h => exact hw.frees hf hs

theorem vis_declare {x : Name} (hx : x ≠ .lambda) (f : Frame) (n : Nat) (k : Kind) :
    vis { f with locals := ⟨x, n, k, f.depth⟩ :: f.locals } = (x, n) :: vis f := by
  unfold vis
  simp [hx]

theorem analyze_reads (c : Code) : ∀ {s : State} {f : Frame} {fs : List Frame} {out : Out}
    {s' : State}, Good s f fs → f.depth + nesting c < 256 → NoLambda c → NoConst c → Shallow c →
    analyze c s = .ok (out, s') → FreesOk (f :: fs) → Small s'.frames → out.Captures 128 →
    FreesOk s'.frames ∧ ∀ chain, Ext s'.frames chain →
      out.reads chain = meanings ((f :: fs).map vis) s.next c := by
  induction c with
  | nil =>
    intro s f fs out s' hg _ _ _ _ h hf _ _
    cases h
    exact ⟨hg.frames ▸ hf, fun _ _ => rfl⟩
  | use x k ih =>
    intro s f fs out s' hg hd hl hc hs h hf hsm hcap
    obtain ⟨q, h1, h2⟩ := bind_ok h
    cases h2
    obtain ⟨f1, fs1, g1, l1, gr1, n1⟩ := ident_good hl.1 hg
    obtain ⟨f2, fs2, g2, l2, n2⟩ := analyze_later k g1 (by rw [l1.depth]; exact hd) hl.2 hc hs h1
    have hsm1 : Small (ident x s).2.frames := by
      rw [g1.frames]; exact l2.small (g2.frames ▸ hsm)
    have hf1 : FreesOk (f1 :: fs1) := by
      rw [← g1.frames]
      exact ident_frees hl.1 (hg.frames ▸ hg.kinds) (hg.frames ▸ hf) hsm1
    obtain ⟨ih1, ih2⟩ := ih g1 (by rw [l1.depth]; exact hd) hl.2 hc hs h1 hf1 hsm hcap
    refine ⟨ih1, fun chain he => ?_⟩
    rw [Out.reads, meanings, ih2 chain he, n1, GrowAll.vis gr1]
    congr 1
    rw [← hg.frames]
    refine ident_reads hl.1 (hg.frames ▸ hg.kinds) (hg.frames ▸ hg.uniq) (hg.frames ▸ hf) hsm1 ?_
    rw [g1.frames]
    exact l2.ext (g2.frames ▸ he)
  | decl x k ih =>
    intro s f fs out s' hg hd hl hc hs h hf hsm hcap
    rw [analyze] at h
    split at h
    · cases h
    obtain ⟨q, h1, h2⟩ := bind_ok h
    cases h2
    obtain ⟨g1, l1⟩ := localNew_good (k := .var) (x := x) hg (by decide) (fun _ => rfl)
    obtain ⟨ih1, ih2⟩ := ih g1 hd hl.2 hc hs h1 (FreesOk.head rfl hf) hsm hcap
    refine ⟨ih1, fun chain he => ?_⟩
    rw [Out.reads, meanings, ih2 chain he, List.map_cons, List.map_cons, vis_declare hl.1,
      localNew_eq _ _ hg.frames]
    rfl
  | const x k ih => intro s f fs out s' _ _ _ hc; exact hc.elim
  | block b k ihb ihk =>
    intro s f fs out s' hg hd hl hc hs h hf hsm hcap
    rw [nesting] at hd
    have hd1 : f.depth + 1 < 256 := by omega
    obtain ⟨r, h1, h⟩ := bind_ok h
    obtain ⟨s2, h2, h⟩ := bind_ok h
    obtain ⟨q, h3, h4⟩ := bind_ok h
    cases h4
    have gb := beginScope_good hg hd1
    have db : ({ f with depth := f.depth + 1 } : Frame).depth + nesting b < 256 := by
      show f.depth + 1 + _ < _; omega
    obtain ⟨f2, fs2, g2, l2, n2⟩ := analyze_later b gb db hl.1 hc.1 hs.1 h1
    have n2' := n2
    rw [beginScope_next] at n2'
    obtain ⟨s3, e3, g3, l3, n3⟩ := block_step hg hd1 g2 l2 n2'
    rw [e3] at h2
    cases h2
    have dk : f.depth + nesting k < 256 := by omega
    obtain ⟨f4, fs4, g4, l4, n4⟩ := analyze_later k g3 dk hl.2 hc.2 hs.2 h3
    have hsm3 : Small (⟨f.locals, f.depth, f2.frees⟩ :: fs2) := l4.small (g4.frames ▸ hsm)
    have hsm2 : Small r.2.frames := by
      rw [g2.frames]; exact Small.head (f := ⟨f.locals, f.depth, f2.frees⟩) rfl hsm3
    obtain ⟨b1, b2⟩ := ihb gb db hl.1 hc.1 hs.1 h1 (FreesOk.head rfl hf) hsm2 hcap.1
    have b1' : FreesOk (f2 :: fs2) := g2.frames ▸ b1
    obtain ⟨k1, k2⟩ := ihk g3 dk hl.2 hc.2 hs.2 h3
      (FreesOk.head (f := f2) rfl b1') hsm hcap.2
    refine ⟨k1, fun chain he => ?_⟩
    rw [Out.reads, meanings, k2 chain he, n3, b2 chain ?_, beginScope_next]
    · rw [List.map_cons, List.map_cons, List.map_cons, GrowAll.vis l3.around]
      rfl
    · rw [g2.frames]
      exact Ext.head (f := ⟨f.locals, f.depth, f2.frees⟩) rfl (l4.ext (g4.frames ▸ he))
  | fn ps b k ihb ihk =>
    intro s f fs out s' hg hd hl hc hs h hf hsm hcap
    obtain ⟨r, h1, h⟩ := bind_ok h
    obtain ⟨s2, h2, h⟩ := bind_ok h
    obtain ⟨q, h3, h4⟩ := bind_ok h
    cases h4
    obtain ⟨new, g1, p1, d1, n1⟩ := literalStart_good (ps := ps) hg
    have db : 1 + nesting b < 256 := by have := hs.1; omega
    obtain ⟨c, gs, g2, l2, n2⟩ := analyze_later b g1 db hl.2.1 hc.1 hs.2.1 h1
    rw [n1] at n2
    obtain ⟨s3, e3, _, ec, f', fs', g3, l3, n3, v3, a3, gs3, _⟩ := fn_step hg d1 g2 l2 n2
    rw [e3] at h2
    cases h2
    rw [ec] at h3
    have dk : f'.depth + nesting k < 256 := by rw [l3.depth]; exact hd
    obtain ⟨f4, fs4, g4, l4, n4⟩ := analyze_later k g3 dk hl.2.2 hc.2 hs.2.2 h3
    have hsm3 : Small (f' :: fs') := l4.small (g4.frames ▸ hsm)
    have hsmg : Small gs := by rw [gs3]; exact Small.head (f := f') rfl hsm3
    have hcap1 := hcap.1
    rw [ec, captures_length (g2.kinds c (List.mem_cons_self ..)).2] at hcap1
    have hsm2 : Small r.2.frames := by
      rw [g2.frames]
      intro a ha
      rcases List.mem_cons.1 ha with rfl | ha
      · exact hcap1
      · exact hsmg a ha
    obtain ⟨b1, b2⟩ := ihb g1 db hl.2.1 hc.1 hs.2.1 h1 ⟨by simp, hf⟩ hsm2 hcap.2.1
    rw [g2.frames] at b1
    have b1' : FreesOk ({ f' with locals := f.locals } :: fs') := gs3 ▸ b1.2
    obtain ⟨k1, k2⟩ := ihk g3 dk hl.2.2 hc.2 hs.2.2 h3
      (FreesOk.head (f := { f' with locals := f.locals }) rfl b1') hsm hcap.2.2
    refine ⟨k1, fun chain he => ?_⟩
    rw [Out.reads, meanings, k2 chain he, b2 _ ?_, n1, n3]
    · rw [List.map_cons, List.map_cons (l := fs'), v3, GrowAll.vis a3, List.map_cons (l := fs)]
      congr 2
      rw [show vis ⟨new ++ [⟨.lambda, s.next, .fn, 0⟩], 1, []⟩ = numbered (s.next + 1) ps [] from ?_]
      · unfold vis
        dsimp only
        rw [p1, paramLocals_vis hl.1]
        rfl
    · rw [g2.frames, ec]
      refine ⟨List.prefix_refl _, ?_⟩
      rw [gs3]
      exact Ext.head (f := f') rfl (l4.ext (g4.frames ▸ he))

/-! ## Which programs are accepted -/

theorem redeclaredIn_new {y : Name} {d : Nat} {l : Local} {ls : List Local} (h : l.depth = d) :
    redeclaredIn y d (l :: ls) = true ↔ y = l.name ∨ redeclaredIn y d ls = true := by
  rw [redeclaredIn, if_neg (by omega)]
  split
  · next e => simp [e]
  · next e => simp [Ne.symm e]

theorem redeclaredIn_outer {y : Name} {d : Nat} {ls : List Local} (h : ∀ l ∈ ls, l.depth < d) :
    redeclaredIn y d ls = false := by
  cases ls with
  | nil => rfl
  | cons l ls => rw [redeclaredIn, if_pos (h l (List.mem_cons_self ..))]

theorem redeclaredIn_params {y : Name} {d n : Nat} {ps : List Name} {ls : List Local} :
    redeclaredIn y d (paramLocals n d ps ls) = true ↔ y ∈ ps ∨ redeclaredIn y d ls = true := by
  induction ps generalizing n ls with
  | nil => simp [paramLocals]
  | cons p ps ih =>
    rw [paramLocals, ih, redeclaredIn_new (l := ⟨p, n, .var, d⟩) (d := d) rfl, List.mem_cons]
    dsimp only
    constructor
    · rintro (h | h | h)
      · exact Or.inl (Or.inr h)
      · exact Or.inl (Or.inl h)
      · exact Or.inr h
    · rintro ((h | h) | h)
      · exact Or.inr (Or.inl h)
      · exact Or.inl h
      · exact Or.inr (Or.inr h)

theorem analyze_accepts (c : Code) : ∀ {s : State} {f : Frame} {fs : List Frame} {here : List Name},
    Good s f fs → 0 < f.depth → f.depth + nesting c < 256 → NoLambda c → NoConst c → Shallow c →
    (∀ y, y ≠ .lambda → (redeclaredIn y f.depth f.locals = true ↔ y ∈ here)) →
    (Distinct here c ∧ ∃ out s', analyze c s = .ok (out, s')) ∨
      (¬ Distinct here c ∧ analyze c s = .redeclared) := by
  induction c with
  | nil => intro s f fs here _ _ _ _ _ _ _; exact Or.inl ⟨trivial, _, _, rfl⟩
  | use x k ih =>
    intro s f fs here hg h0 hd hl hc hs hh
    obtain ⟨f1, fs1, g1, l1, gr1, n1⟩ := ident_good hl.1 hg
    have hloc : f1.locals = f.locals := gr1.1.1
    rcases ih g1 (by rw [l1.depth]; exact h0) (by rw [l1.depth]; exact hd) hl.2 hc hs
      (by rw [l1.depth, hloc]; exact hh) with ⟨h1, out, s', h2⟩ | ⟨h1, h2⟩
    · exact Or.inl ⟨h1, .use (ident x s).1 out, s', by rw [analyze]; simp only [h2]; rfl⟩
    · exact Or.inr ⟨h1, by rw [analyze]; simp only [h2]; rfl⟩
  | decl x k ih =>
    intro s f fs here hg h0 hd hl hc hs hh
    have hr : redeclared x s = true ↔ x ∈ here := by
      unfold redeclared
      rw [hg.frames]
      dsimp only
      rw [if_neg (by omega)]
      exact hh x hl.1
    by_cases hx : x ∈ here
    · refine Or.inr ⟨fun h => h.1 hx, ?_⟩
      rw [analyze, if_pos (hr.2 hx)]
    · obtain ⟨g1, l1⟩ := localNew_good (k := .var) (x := x) hg (by decide) (fun _ => rfl)
      have hneg : ¬ redeclared x s = true := fun h => hx (hr.1 h)
      rcases ih (here := x :: here) g1 h0 hd hl.2 hc hs (by
        intro y hy
        dsimp only
        rw [redeclaredIn_new (l := ⟨x, s.next, .var, f.depth⟩) (d := f.depth) rfl, List.mem_cons,
          hh y hy]) with ⟨h1, out, s', h2⟩ | ⟨h1, h2⟩
      · refine Or.inl ⟨⟨hx, h1⟩, .decl s.next out, s', ?_⟩
        rw [analyze, if_neg hneg, h2]; rfl
      · refine Or.inr ⟨fun h => h1 h.2, ?_⟩
        rw [analyze, if_neg hneg, h2]; rfl
  | const x k ih => intro s f fs here _ _ _ _ hc; exact hc.elim
  | block b k ihb ihk =>
    intro s f fs here hg h0 hd hl hc hs hh
    rw [nesting] at hd
    have hd1 : f.depth + 1 < 256 := by omega
    have gb := beginScope_good hg hd1
    have db : ({ f with depth := f.depth + 1 } : Frame).depth + nesting b < 256 := by
      show f.depth + 1 + _ < _; omega
    rcases ihb (here := []) gb (Nat.succ_pos _) db hl.1 hc.1 hs.1 (by
      intro y _
      rw [redeclaredIn_outer (fun l h => Nat.lt_succ_of_le (hg.depth l h))]
      simp) with ⟨h1, out, t, h2⟩ | ⟨h1, h2⟩
    · obtain ⟨f2, fs2, g2, l2, n2⟩ := analyze_later b gb db hl.1 hc.1 hs.1 h2
      rw [beginScope_next] at n2
      obtain ⟨s3, e3, g3, l3, n3⟩ := block_step hg hd1 g2 l2 n2
      have dk : f.depth + nesting k < 256 := by omega
      rcases ihk g3 h0 dk hl.2 hc.2 hs.2 hh with ⟨h4, out', s', h5⟩ | ⟨h4, h5⟩
      · refine Or.inl ⟨⟨h1, h4⟩, .block out out', s', ?_⟩
        rw [analyze, h2]
        simp only [Res.bind, e3, h5]
      · refine Or.inr ⟨fun h => h4 h.2, ?_⟩
        rw [analyze, h2]
        simp only [Res.bind, e3, h5]
    · refine Or.inr ⟨fun h => h1 h.1, ?_⟩
      rw [analyze, h2]; rfl
  | fn ps b k ihb ihk =>
    intro s f fs here hg h0 hd hl hc hs hh
    obtain ⟨new, g1, p1, d1, n1⟩ := literalStart_good (ps := ps) hg
    have db : 1 + nesting b < 256 := by have := hs.1; omega
    rcases ihb (here := ps) g1 Nat.one_pos db hl.2.1 hc.1 hs.2.1 (by
      intro y _
      show redeclaredIn y 1 (new ++ [⟨.lambda, s.next, .fn, 0⟩]) = true ↔ _
      rw [p1, redeclaredIn_params, redeclaredIn_outer (by simp)]
      simp) with ⟨h1, out, t, h2⟩ | ⟨h1, h2⟩
    · obtain ⟨c, gs, g2, l2, n2⟩ := analyze_later b g1 db hl.2.1 hc.1 hs.2.1 h2
      rw [n1] at n2
      obtain ⟨s3, e3, _, ec, f', fs', g3, l3, n3, v3, a3, gs3, kk, loc3⟩ := fn_step hg d1 g2 l2 n2
      have dk : f'.depth + nesting k < 256 := by rw [l3.depth]; exact hd
      unfold literalStart at h2
      rcases ihk (here := here) g3 (by rw [l3.depth]; exact h0) dk hl.2.2 hc.2 hs.2.2 (by
        intro y hy
        rw [loc3, l3.depth, redeclaredIn_new (l := ⟨.lambda, s.next, kk, f.depth⟩) (d := f.depth) rfl,
          hh y hy]
        exact ⟨fun h => h.resolve_left hy, Or.inr⟩) with ⟨h4, out', s', h5⟩ | ⟨h4, h5⟩
      · refine Or.inl ⟨⟨h1, h4⟩, .fn (captures c.frees) out out', s', ?_⟩
        rw [analyze, h2]
        simp only [Res.bind, e3, ec, h5]
      · refine Or.inr ⟨fun h => h4 h.2, ?_⟩
        rw [analyze, h2]
        simp only [Res.bind, e3, ec, h5]
    · refine Or.inr ⟨fun h => h1 h.1, ?_⟩
      unfold literalStart at h2
      rw [analyze, h2]; rfl

end Nature.Capture
