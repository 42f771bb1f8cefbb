import Verif.Capture.Frames

namespace Nature.Capture

/-! ## From an entry to the variable -/

/-- The captures of the functions, as they will be at the end. -/
def Ext : List Frame → List (List Cap) → Prop
  | [], _ => True
  | f :: fs, [] => f.frees = [] ∧ Ext fs []
  | f :: fs, c :: cs => captures f.frees <+: c ∧ Ext fs cs

theorem captures_prefix {a b : List Free} (h : a <+: b) : captures a <+: captures b := by
  unfold captures
  exact (h.filter _).map _

theorem Ext.grow : {fs gs : List Frame} → {chain : List (List Cap)} → GrowAll fs gs →
    Ext gs chain → Ext fs chain
  | [], _, _, _, _ => by simp [Ext]
  | f :: fs, g :: gs, [], hg, h => by
    refine ⟨?_, Ext.grow hg.2 h.2⟩
    have := hg.1.2.2
    rw [h.1] at this
    exact List.prefix_nil.1 this
  | f :: fs, g :: gs, c :: cs, hg, h =>
    ⟨(captures_prefix hg.1.2.2).trans h.1, Ext.grow hg.2 h.2⟩
  | _ :: _, [], _, hg, _ => hg.elim

theorem captures_eq {frees : List Free} (h : ∀ e ∈ frees, e.kind = .var) :
    captures frees = frees.map fun e => if e.isLocal then .var e.id else .env e.envIndex := by
  unfold captures
  rw [List.filter_eq_self.2]
  intro e he
  simp [h e he]

theorem captures_length {frees : List Free} (h : ∀ e ∈ frees, e.kind = .var) :
    (captures frees).length = frees.length := by
  rw [captures_eq h, List.length_map]

/-- A place of the environment holds the variable the entry was made for. -/
theorem place : (fs : List Frame) → (chain : List (List Cap)) → (f : Frame) → (i : Nat) →
    (e : Free) → Kinds (f :: fs) → FreesOk (f :: fs) → Ext (f :: fs) chain →
    f.frees[i]? = some e →
    ∃ h g l, fs[h]? = some g ∧ l ∈ g.locals ∧ l.id = e.id ∧ envPlace chain i = .var (h + 1) e.id
  | fs, [], f, i, e, _, _, hx, hi => by
    have := hx.1
    rw [this] at hi
    simp at hi
  | [], c :: cs, f, i, e, _, hf, _, hi => (hf.1 e (List.mem_of_getElem? hi)).elim
  | p :: rest, c :: cs, f, i, e, hk, hf, hx, hi => by
    have hc : c[i]? = some (if e.isLocal then Cap.var e.id else Cap.env e.envIndex) := by
      obtain ⟨t, ht⟩ := hx.1
      rw [captures_eq (hk f (List.mem_cons_self ..)).2] at ht
      rw [← ht, List.getElem?_append_left]
      · simp [hi]
      · rw [List.length_map]; exact getElem?_lt hi
    have ha := hf.1 e (List.mem_of_getElem? hi)
    simp only [FreeAt] at ha
    by_cases hl : e.isLocal = true
    · rw [if_pos hl] at ha hc
      obtain ⟨l, hl, hid, _⟩ := ha
      exact ⟨0, p, l, rfl, hl, hid, by simp [envPlace, hc]⟩
    · rw [if_neg hl] at ha hc
      obtain ⟨e', he', hid'⟩ := ha
      obtain ⟨h, g, l, h1, h2, h3, h4⟩ := place rest cs p e.envIndex e' (kinds_tail hk) hf.2 hx.2 he'
      refine ⟨h + 1, g, l, by simpa using h1, h2, by rw [h3, hid'], ?_⟩
      simp [envPlace, hc, h4, hid']

theorem uniq_at {fs : List Frame} (hu : Uniq fs) {h h' : Nat} {g g' : Frame} {l l' : Local}
    (hg : fs[h]? = some g) (hg' : fs[h']? = some g') (hl : l ∈ g.locals) (hl' : l' ∈ g'.locals)
    (hid : l.id = l'.id) : h = h' := by
  induction fs generalizing h h' with
  | nil => simp at hg
  | cons f fs ih =>
    cases h with
    | zero =>
      cases h' with
      | zero => rfl
      | succ h' =>
        simp only [List.getElem?_cons_zero, Option.some.injEq] at hg
        subst hg
        exact absurd hid (hu.1 l hl g' (List.mem_of_getElem? (by simpa using hg')) l' hl')
    | succ h =>
      cases h' with
      | zero =>
        simp only [List.getElem?_cons_zero, Option.some.injEq] at hg'
        subst hg'
        exact absurd hid.symm (hu.1 l' hl' g (List.mem_of_getElem? (by simpa using hg)) l hl)
      | succ h' =>
        exact congrArg (· + 1) (ih hu.2 (by simpa using hg) (by simpa using hg'))

/-- A use of a name reads the innermost declaration. -/
theorem ident_reads {x : Name} (hx : x ≠ .lambda) {s : State} {chain : List (List Cap)}
    (hk : Kinds s.frames) (hu : Uniq s.frames) (hf : FreesOk s.frames)
    (hs : Small (ident x s).2.frames) (he : Ext (ident x s).2.frames chain) :
    (ident x s).1.means chain = meaning x (s.frames.map vis) := by
  cases hfs : s.frames with
  | nil => simp [ident, hfs, Ref.means, meaning, find]
  | cons f fs =>
    unfold ident at hs he ⊢
    rw [hfs] at hs he hk hu hf
    rw [hfs]
    unfold meaning
    rw [find_cons hx]
    dsimp only at hs he ⊢
    cases hl : lookup x f.locals with
    | some l => simp [Ref.means]
    | none =>
      have hw := resolveFree_walk hx (f :: fs) hk
      simp only [hl] at hs he ⊢
      generalize hr : resolveFree x (f :: fs) = r at hw hs he
      obtain ⟨ps, o⟩ := r
      cases o with
      | none =>
        dsimp only
        cases hq : find x (fs.map vis) with
        | none => rfl
        | some q =>
          obtain ⟨hit, h1, _⟩ := hw.found q.1 q.2 hq
          cases h1
      | some hit =>
        dsimp only at hs he ⊢
        cases hq : find x (fs.map vis) with
        | none => have := hw.missing hq; cases this
        | some q =>
          obtain ⟨hit', h1, hid, hkind, hplace⟩ := hw.found q.1 q.2 hq
          cases h1
          obtain ⟨f', rest, e, h1, hpos, hget, heid⟩ := hplace hs
          dsimp only at h1
          subst h1
          rw [if_pos ⟨hkind, hpos⟩]
          obtain ⟨h, g, l, p1, p2, p3, p4⟩ :=
            place rest chain f' _ e hw.kinds (hw.frees hf hs) he hget
          obtain ⟨g', l', q1, q2, q3⟩ := find_at (fs := rest) hx
            (by rw [GrowAll.vis hw.grow.2]; exact hq)
          have : h = q.1 := uniq_at (Uniq.grow hw.grow hu).2 p1 q1 p2 q2 (by rw [p3, q3, heid])
          simp only [Ref.means, p4, Option.map_some, this, heid]

end Nature.Capture
