import Verif.Capture.Place

namespace Nature.Capture

/-- The state inside a function. -/
structure Good (s : State) (f : Frame) (fs : List Frame) : Prop where
  frames : s.frames = f :: fs
  kinds : Kinds (f :: fs)
  uniq : Uniq (f :: fs)
  fresh : ∀ g ∈ f :: fs, ∀ l ∈ g.locals, l.id < s.next
  depth : ∀ l ∈ f.locals, l.depth ≤ f.depth
  weak : Weak (f :: fs)

/-- A later moment in the same block of the same function. -/
structure Later (f : Frame) (fs : List Frame) (f' : Frame) (fs' : List Frame) : Prop where
  depth : f'.depth = f.depth
  locals : ∃ new, f'.locals = new ++ f.locals ∧ ∀ l ∈ new, l.depth = f.depth
  frees : f.frees <+: f'.frees
  around : GrowAll fs fs'

theorem Later.refl (f : Frame) (fs : List Frame) : Later f fs f fs :=
  ⟨rfl, ⟨[], rfl, by simp⟩, List.prefix_refl _, GrowAll.refl _⟩

theorem Later.trans {f g h : Frame} {fs gs hs : List Frame} (a : Later f fs g gs)
    (b : Later g gs h hs) : Later f fs h hs := by
  obtain ⟨n1, e1, d1⟩ := a.locals
  obtain ⟨n2, e2, d2⟩ := b.locals
  refine ⟨b.depth.trans a.depth, ⟨n2 ++ n1, ?_, ?_⟩, a.frees.trans b.frees, a.around.trans b.around⟩
  · rw [e2, e1, List.append_assoc]
  · intro l hl
    rcases List.mem_append.1 hl with hl | hl
    · rw [d2 l hl, a.depth]
    · exact d1 l hl

theorem ident_good {x : Name} (hx : x ≠ .lambda) {s : State} {f : Frame} {fs : List Frame}
    (hg : Good s f fs) : ∃ f' fs', Good (ident x s).2 f' fs' ∧ Later f fs f' fs' ∧
      GrowAll (f :: fs) (f' :: fs') ∧ (ident x s).2.next = s.next := by
  have hw := resolveFree_walk hx (f :: fs) hg.kinds
  unfold ident
  rw [hg.frames]
  dsimp only
  cases lookup x f.locals with
  | some l => exact ⟨f, fs, hg, Later.refl f fs, GrowAll.refl _, rfl⟩
  | none =>
    dsimp only
    have key : ∀ (ps : List Frame) (o : Option Hit), resolveFree x (f :: fs) = (ps, o) →
        ∃ f' fs', ps = f' :: fs' ∧ Grow f f' ∧ GrowAll fs fs' ∧ Kinds (f' :: fs') ∧
          Weak (f' :: fs') := by
      intro ps o hr
      rw [hr] at hw
      obtain ⟨f', fs', h1, h2, h3⟩ := hw.grow.cons_left
      dsimp only at h1
      exact ⟨f', fs', h1, h2, h3, h1 ▸ hw.kinds, h1 ▸ hw.weak hg.weak⟩
    have fin : ∀ (t : State) (f' : Frame) (fs' : List Frame), t.frames = f' :: fs' →
        t.next = s.next → Grow f f' → GrowAll fs fs' → Kinds (f' :: fs') →
        Weak (f' :: fs') → Good t f' fs' ∧ Later f fs f' fs' ∧ GrowAll (f :: fs) (f' :: fs') := by
      intro t f' fs' h1 h2 h3 h4 h5 h6
      refine ⟨⟨h1, h5, Uniq.grow (show GrowAll (f :: fs) (f' :: fs') from ⟨h3, h4⟩) hg.uniq, ?_, ?_, h6⟩,
        ⟨h3.2.1, ⟨[], h3.1, by simp⟩, h3.2.2, h4⟩, ⟨h3, h4⟩⟩
      · intro g hg' l hl
        obtain ⟨a, ha, hb⟩ := grow_mem (fs := f :: fs) (gs := f' :: fs') ⟨h3, h4⟩ hg'
        rw [hb] at hl
        rw [h2]
        exact hg.fresh a ha l hl
      · rw [h3.1, h3.2.1]; exact hg.depth
    generalize hr : resolveFree x (f :: fs) = r
    obtain ⟨ps, o⟩ := r
    obtain ⟨f', fs', h1, h2, h3, h4, h5⟩ := key ps o hr
    cases o with
    | none =>
      have := fin { s with frames := ps } f' fs' h1 rfl h2 h3 h4 h5
      exact ⟨f', fs', this.1, this.2.1, this.2.2, rfl⟩
    | some h =>
      have := fin { s with frames := ps, marked := h.id :: s.marked } f' fs' h1 rfl h2 h3 h4 h5
      exact ⟨f', fs', this.1, this.2.1, this.2.2, rfl⟩

theorem localNew_eq (k : Kind) (x : Name) {s : State} {f : Frame} {fs : List Frame}
    (h : s.frames = f :: fs) : localNew k x s =
      ⟨s.next + 1, s.marked, s.heap,
        { f with locals := ⟨x, s.next, k, f.depth⟩ :: f.locals } :: fs⟩ := by
  unfold localNew; rw [h]

theorem localNew_good {k : Kind} {x : Name} {s : State} {f : Frame} {fs : List Frame}
    (hg : Good s f fs) (hc : k ≠ .const) (hx : x ≠ .lambda → k = .var) :
    Good (localNew k x s) { f with locals := ⟨x, s.next, k, f.depth⟩ :: f.locals } fs ∧
      Later f fs { f with locals := ⟨x, s.next, k, f.depth⟩ :: f.locals } fs := by
  rw [localNew_eq k x hg.frames]
  refine ⟨⟨rfl, ?_, ⟨?_, hg.uniq.2⟩, ?_, ?_, hg.weak⟩,
    ⟨rfl, ⟨[_], rfl, by simp⟩, List.prefix_refl _, GrowAll.refl _⟩⟩
  · intro g hg'
    rcases List.mem_cons.1 hg' with rfl | hg'
    · refine ⟨?_, (hg.kinds f (List.mem_cons_self ..)).2⟩
      intro l hl
      rcases List.mem_cons.1 hl with rfl | hl
      · exact ⟨hc, hx⟩
      · exact (hg.kinds f (List.mem_cons_self ..)).1 l hl
    · exact hg.kinds g (List.mem_cons_of_mem _ hg')
  · intro l hl g hg' m hm
    rcases List.mem_cons.1 hl with rfl | hl
    · have := hg.fresh g (List.mem_cons_of_mem _ hg') m hm
      dsimp only
      omega
    · exact hg.uniq.1 l hl g hg' m hm
  · intro g hg' l hl
    rcases List.mem_cons.1 hg' with rfl | hg'
    · rcases List.mem_cons.1 hl with rfl | hl
      · exact Nat.lt_succ_self _
      · exact Nat.lt_succ_of_lt (hg.fresh f (List.mem_cons_self ..) l hl)
    · exact Nat.lt_succ_of_lt (hg.fresh g (List.mem_cons_of_mem _ hg') l hl)
  · intro l hl
    rcases List.mem_cons.1 hl with rfl | hl
    · exact Nat.le_refl _
    · exact hg.depth l hl

theorem beginScope_good {s : State} {f : Frame} {fs : List Frame} (hg : Good s f fs)
    (hd : f.depth + 1 < 256) : Good (beginScope s) { f with depth := f.depth + 1 } fs := by
  unfold beginScope
  rw [hg.frames]
  have e : (f.depth + 1) % 256 = f.depth + 1 := Nat.mod_eq_of_lt hd
  refine ⟨by simp only [e], ?_, ⟨hg.uniq.1, hg.uniq.2⟩, ?_, ?_, hg.weak⟩
  · intro g hg'
    rcases List.mem_cons.1 hg' with rfl | hg'
    · exact hg.kinds f (List.mem_cons_self ..)
    · exact hg.kinds g (List.mem_cons_of_mem _ hg')
  · intro g hg' l hl
    rcases List.mem_cons.1 hg' with rfl | hg'
    · exact hg.fresh f (List.mem_cons_self ..) l hl
    · exact hg.fresh g (List.mem_cons_of_mem _ hg') l hl
  · intro l hl
    exact Nat.le_succ_of_le (hg.depth l hl)

theorem beginScope_next (s : State) : (beginScope s).next = s.next := by
  unfold beginScope; split <;> rfl

theorem popLocals_new {d : Nat} {marked : List Nat} {new old : List Local} {heap : List Nat}
    (hn : ∀ l ∈ new, d < l.depth) (ho : ∀ l ∈ old, l.depth ≤ d) (hc : ∀ l ∈ new, l.kind ≠ .const) :
    ∃ heap', popLocals d marked (new ++ old) heap = .ok (old, heap') := by
  induction new generalizing heap with
  | nil =>
    cases old with
    | nil => exact ⟨heap, rfl⟩
    | cons l ls =>
      refine ⟨heap, ?_⟩
      rw [List.nil_append, popLocals, if_pos (ho l (List.mem_cons_self ..))]
  | cons l new ih =>
    have ih' := fun heap => ih (heap := heap) (fun a ha => hn a (List.mem_cons_of_mem _ ha))
      (fun a ha => hc a (List.mem_cons_of_mem _ ha))
    have h1 := hn l (List.mem_cons_self ..)
    have h2 := hc l (List.mem_cons_self ..)
    rw [List.cons_append, popLocals, if_neg (by omega)]
    split
    · next hm =>
      rw [if_pos]
      · exact ih' _
      · have h3 := hm.2
        cases hk : l.kind with
        | var => rfl
        | fn => exact absurd hk h3
        | const => exact absurd hk h2
    · exact ih' _

/-- Leaving a block: the declarations made in it go. -/
theorem endScope_good {s : State} {f : Frame} {fs : List Frame} (hg : Good s f fs) {d : Nat}
    (hd : f.depth = d + 1) (hd' : d + 1 < 256) {new old : List Local}
    (hl : f.locals = new ++ old) (hn : ∀ l ∈ new, l.depth = d + 1) (ho : ∀ l ∈ old, l.depth ≤ d) :
    ∃ s', endScope s = .ok s' ∧ Good s' ⟨old, d, f.frees⟩ fs ∧ s'.next = s.next := by
  have e : (f.depth + 255) % 256 = d := by rw [hd]; omega
  have hk := hg.kinds f (List.mem_cons_self ..)
  obtain ⟨heap', hp⟩ := popLocals_new (d := d) (marked := s.marked) (heap := s.heap)
    (fun l h => by rw [hn l h]; omega) ho
    (fun l h => (hk.1 l (by rw [hl]; exact List.mem_append_left _ h)).1)
  unfold endScope
  rw [hg.frames]
  dsimp only
  rw [e, hl, hp]
  have sub : ∀ l ∈ old, l ∈ f.locals := fun l h => by rw [hl]; exact List.mem_append_right _ h
  refine ⟨_, rfl, ⟨rfl, ?_, ⟨?_, hg.uniq.2⟩, ?_, ho, hg.weak⟩, rfl⟩
  · intro g hg'
    rcases List.mem_cons.1 hg' with rfl | hg'
    · exact ⟨fun l h => hk.1 l (sub l h), hk.2⟩
    · exact hg.kinds g (List.mem_cons_of_mem _ hg')
  · intro l h
    exact hg.uniq.1 l (sub l h)
  · intro g hg' l hl'
    rcases List.mem_cons.1 hg' with rfl | hg'
    · exact hg.fresh f (List.mem_cons_self ..) l (sub l hl')
    · exact hg.fresh g (List.mem_cons_of_mem _ hg') l hl'

/-- A new function. -/
theorem enter_good {s : State} {fs : List Frame} (hk : Kinds fs) (hu : Uniq fs)
    (hf : s.frames = fs) (hfr : ∀ g ∈ fs, ∀ l ∈ g.locals, l.id < s.next)
    (hw : Weak fs) : Good (enter s) ⟨[], 0, []⟩ fs := by
  refine ⟨by unfold enter; rw [hf], ?_, ⟨by simp, hu⟩, ?_, by simp, by simp, hw⟩
  · intro g hg'
    rcases List.mem_cons.1 hg' with rfl | hg'
    · exact ⟨by simp, by simp⟩
    · exact hk g hg'
  · intro g hg' l hl
    rcases List.mem_cons.1 hg' with rfl | hg'
    · simp at hl
    · exact hfr g hg' l hl

/-- The locals made by the parameters of a function. -/
def paramLocals (n d : Nat) : List Name → List Local → List Local
  | [], ls => ls
  | p :: ps, ls => paramLocals (n + 1) d ps (⟨p, n, .var, d⟩ :: ls)

theorem addParams_good {ps : List Name} {s : State} {f : Frame} {fs : List Frame}
    (hg : Good s f fs) :
    Good (addParams ps s) { f with locals := paramLocals s.next f.depth ps f.locals } fs ∧
      Later f fs { f with locals := paramLocals s.next f.depth ps f.locals } fs ∧
      (addParams ps s).next = s.next + ps.length := by
  induction ps generalizing s f with
  | nil => exact ⟨hg, Later.refl f fs, rfl⟩
  | cons p ps ih =>
    have h1 := localNew_good (k := .var) (x := p) hg (by decide) (fun _ => rfl)
    have hn : (localNew .var p s).next = s.next + 1 := by rw [localNew_eq _ _ hg.frames]
    obtain ⟨a, b, c⟩ := ih h1.1
    rw [hn] at a b c
    refine ⟨a, h1.2.trans b, ?_⟩
    rw [addParams, c, List.length_cons]
    omega

theorem paramLocals_vis {n d : Nat} {ps : List Name} {ls : List Local} (h : Name.lambda ∉ ps) :
    ((paramLocals n d ps ls).filter (fun l => l.name ≠ .lambda)).map (fun l => (l.name, l.id)) =
      numbered n ps ((ls.filter (fun l => l.name ≠ .lambda)).map fun l => (l.name, l.id)) := by
  induction ps generalizing n ls with
  | nil => rfl
  | cons p ps ih =>
    rw [paramLocals, ih (fun hh => h (List.mem_cons_of_mem _ hh)), numbered, List.filter_cons]
    have : p ≠ .lambda := fun hp => h (by rw [hp]; exact List.mem_cons_self ..)
    simp [this]

/-- The state at the start of the body of a function literal. -/
def literalStart (ps : List Name) (s : State) : State :=
  addParams ps (beginScope (selfLocal (enter s)))

theorem literalStart_good {ps : List Name} {s : State} {f : Frame} {fs : List Frame}
    (hg : Good s f fs) : ∃ new, Good (literalStart ps s)
      ⟨new ++ [⟨.lambda, s.next, .fn, 0⟩], 1, []⟩ (f :: fs) ∧
      new ++ [⟨.lambda, s.next, .fn, 0⟩] = paramLocals (s.next + 1) 1 ps [⟨.lambda, s.next, .fn, 0⟩] ∧
      (∀ l ∈ new, l.depth = 1) ∧ (literalStart ps s).next = s.next + 1 + ps.length := by
  have h0 := enter_good hg.kinds hg.uniq hg.frames hg.fresh hg.weak
  have hne : (enter s).next = s.next := rfl
  have h1 := (localNew_good (k := .fn) (x := .lambda) h0 (by decide) (fun h => absurd rfl h)).1
  have hn1 : (selfLocal (enter s)).next = s.next + 1 := by
    unfold selfLocal; rw [localNew_eq _ _ h0.frames]; rfl
  have h2 := beginScope_good h1 (by show 0 + 1 < 256; omega)
  have hn2 : (beginScope (selfLocal (enter s))).next = s.next + 1 := by
    rw [beginScope_next, hn1]
  obtain ⟨h3, h4, h5⟩ := addParams_good (ps := ps) h2
  obtain ⟨new, e, hd⟩ := h4.locals
  have e' : (⟨paramLocals (s.next + 1) 1 ps [⟨.lambda, s.next, .fn, 0⟩], 1, []⟩ : Frame) = ⟨new ++ [⟨.lambda, s.next, .fn, 0⟩], 1, []⟩ := by
    have := e
    simp only [Nat.zero_add] at this
    rw [show (beginScope (localNew Kind.fn Name.lambda (enter s))).next = s.next + 1 from hn2, hne]
      at this
    rw [this]
  refine ⟨new, ?_, ?_, hd, ?_⟩
  · rw [← e']
    have := h3
    rw [show (beginScope (localNew Kind.fn Name.lambda (enter s))).next = s.next + 1 from hn2] at this
    exact this
  · have := congrArg Frame.locals e'
    exact this.symm
  · unfold literalStart
    rw [show beginScope (selfLocal (enter s)) =
      beginScope (localNew Kind.fn Name.lambda (enter s)) from rfl, h5,
      show (beginScope (localNew Kind.fn Name.lambda (enter s))).next = s.next + 1 from hn2]

/-- Back from a function literal. -/
theorem leave_good {s s' : State} {f : Frame} {fs : List Frame} (hg : Good s f fs)
    {c : Frame} {gs : List Frame} (hc : Good s' c gs) (hgs : GrowAll (f :: fs) gs) (caps : List Cap)
    (hn : s.next < s'.next) :
    ∃ f' fs', Good (leave s.next caps s') f' fs' ∧ Later f fs f' fs' ∧
      (leave s.next caps s').next = s'.next ∧
      vis f' = vis f ∧ GrowAll fs fs' ∧ gs = { f' with locals := f.locals } :: fs' ∧
      (∃ k, f'.locals = ⟨.lambda, s.next, k, f.depth⟩ :: f.locals) := by
  obtain ⟨g, gs', rfl, h1, h2⟩ := hgs.cons_left
  have hl : leave s.next caps s' = ⟨s'.next, s'.marked, s'.heap, { g with locals :=
      ⟨.lambda, s.next, if caps.length > 0 then .var else .fn, g.depth⟩ :: g.locals } :: gs'⟩ := by
    unfold leave; rw [hc.frames]
  rw [hl]
  refine ⟨_, _, ⟨rfl, ?_, ⟨?_, hc.uniq.2.2⟩, ?_, ?_, hc.weak.2⟩, ⟨h1.2.1,
    ⟨[⟨.lambda, s.next, if caps.length > 0 then .var else .fn, g.depth⟩], ?_, ?_⟩, h1.2.2, h2⟩, rfl,
    ?_, h2, ?_, ?_⟩
  · intro a ha
    rcases List.mem_cons.1 ha with rfl | ha
    · have := hc.kinds g (List.mem_cons_of_mem _ (List.mem_cons_self ..))
      refine ⟨?_, this.2⟩
      intro l hl
      rcases List.mem_cons.1 hl with rfl | hl
      · refine ⟨?_, fun h => absurd rfl h⟩
        dsimp only
        split <;> decide
      · exact this.1 l hl
    · exact hc.kinds a (List.mem_cons_of_mem _ (List.mem_cons_of_mem _ ha))
  · intro l hl a ha m hm
    rcases List.mem_cons.1 hl with rfl | hl
    · obtain ⟨b, hb, hbe⟩ := grow_mem h2 ha
      rw [hbe] at hm
      have := hg.fresh b (List.mem_cons_of_mem _ hb) m hm
      dsimp only
      omega
    · exact hc.uniq.2.1 l hl a ha m hm
  · intro a ha l hl
    rcases List.mem_cons.1 ha with rfl | ha
    · rcases List.mem_cons.1 hl with rfl | hl
      · exact hn
      · exact hc.fresh g (List.mem_cons_of_mem _ (List.mem_cons_self ..)) l hl
    · exact hc.fresh a (List.mem_cons_of_mem _ (List.mem_cons_of_mem _ ha)) l hl
  · intro l hl
    rcases List.mem_cons.1 hl with rfl | hl
    · exact Nat.le_refl _
    · dsimp only
      rw [h1.1] at hl
      rw [h1.2.1]
      exact hg.depth l hl
  · show _ = _ ++ _
    rw [h1.1]; rfl
  · intro l hl
    rw [List.mem_singleton] at hl
    rw [hl]
    exact h1.2.1
  · unfold vis
    simp [List.filter_cons, h1.1]
  · rw [← h1.1]
  · exact ⟨_, by rw [h1.1, h1.2.1]⟩

end Nature.Capture
