import Verif.Capture.Model

namespace Nature.Capture

/-! ## What a frame shows -/

/-- The declarations of a frame that a program can name. -/
def vis (f : Frame) : Visible :=
  (f.locals.filter (fun l => l.name ≠ .lambda)).map fun l => (l.name, l.id)

theorem find_filter {x : Name} (hx : x ≠ .lambda) (ls : List Local) :
    ((ls.filter (fun l => l.name ≠ .lambda)).map (fun l => (l.name, l.id))).find?
      (fun b => b.1 = x) = (lookup x ls).map fun l => (l.name, l.id) := by
  induction ls with
  | nil => rfl
  | cons l ls ih =>
    unfold lookup at *
    by_cases hl : l.name = x
    · have : l.name ≠ .lambda := by rw [hl]; exact hx
      simp [List.filter_cons, this, hl, hx]
    · by_cases hb : l.name = .lambda
      · rw [List.filter_cons]
        simp only [hb, ne_eq, not_true_eq_false, decide_false, Bool.false_eq_true, if_false]
        rw [ih, List.find?_cons]
        simp [hb, Ne.symm hx]
      · rw [List.filter_cons]
        simp only [ne_eq, hb, not_false_eq_true, decide_true, if_true, List.map_cons,
          List.find?_cons]
        simp only [hl, decide_false]
        exact ih

theorem vis_find {x : Name} (hx : x ≠ .lambda) (f : Frame) :
    (vis f).find? (fun b => b.1 = x) = (lookup x f.locals).map fun l => (l.name, l.id) :=
  find_filter hx f.locals

theorem lookup_some {x : Name} {ls : List Local} {l : Local} (h : lookup x ls = some l) :
    l ∈ ls ∧ l.name = x := by
  unfold lookup at h
  exact ⟨List.mem_of_find?_eq_some h, by simpa using List.find?_some h⟩

/-! ## Growth -/

/-- A frame that only captured more. -/
def Grow (f g : Frame) : Prop :=
  g.locals = f.locals ∧ g.depth = f.depth ∧ f.frees <+: g.frees

def GrowAll : List Frame → List Frame → Prop
  | [], [] => True
  | f :: fs, g :: gs => Grow f g ∧ GrowAll fs gs
  | _, _ => False

theorem Grow.refl (f : Frame) : Grow f f := ⟨rfl, rfl, List.prefix_refl _⟩

theorem GrowAll.refl (fs : List Frame) : GrowAll fs fs := by
  induction fs with
  | nil => trivial
  | cons f fs ih => exact ⟨Grow.refl f, ih⟩

theorem Grow.trans {f g h : Frame} (a : Grow f g) (b : Grow g h) : Grow f h :=
  ⟨b.1.trans a.1, b.2.1.trans a.2.1, a.2.2.trans b.2.2⟩

theorem GrowAll.trans : {fs gs hs : List Frame} → GrowAll fs gs → GrowAll gs hs → GrowAll fs hs
  | [], [], [], _, _ => trivial
  | _ :: _, _ :: _, _ :: _, a, b => ⟨a.1.trans b.1, a.2.trans b.2⟩
  | [], _ :: _, _, a, _ => a.elim
  | _ :: _, [], _, a, _ => a.elim
  | [], [], _ :: _, _, b => b.elim
  | _ :: _, _ :: _, [], _, b => b.elim

theorem GrowAll.vis : {fs gs : List Frame} → GrowAll fs gs → gs.map vis = fs.map vis
  | [], [], _ => rfl
  | f :: fs, g :: gs, h => by
    rw [List.map_cons, List.map_cons, GrowAll.vis h.2]
    unfold Nature.Capture.vis
    rw [h.1.1]
  | [], _ :: _, h => h.elim
  | _ :: _, [], h => h.elim

theorem GrowAll.cons_left {f : Frame} {fs gs : List Frame} (h : GrowAll (f :: fs) gs) :
    ∃ g gs', gs = g :: gs' ∧ Grow f g ∧ GrowAll fs gs' := by
  cases gs with
  | nil => exact h.elim
  | cons g gs => exact ⟨g, gs, rfl, h.1, h.2⟩

/-! ## Invariants of the functions being analysed -/

/-- Only function literals are called `lambda`, and there are no constants. -/
def Kinds (fs : List Frame) : Prop :=
  ∀ f ∈ fs, (∀ l ∈ f.locals, l.kind ≠ .const ∧ (l.name ≠ .lambda → l.kind = .var)) ∧
    ∀ e ∈ f.frees, e.kind = .var

/-- Unique names are unique across functions. -/
def Uniq : List Frame → Prop
  | [] => True
  | f :: fs => (∀ l ∈ f.locals, ∀ g ∈ fs, ∀ m ∈ g.locals, l.id ≠ m.id) ∧ Uniq fs

/-- An entry leads to something in the function around. -/
def FreeAt (e : Free) : List Frame → Prop
  | [] => False
  | p :: _ =>
    if e.isLocal then ∃ l ∈ p.locals, l.id = e.id ∧ l.kind = .var
    else ∃ g, p.frees[e.envIndex]? = some g ∧ g.id = e.id

def FreesOk : List Frame → Prop
  | [] => True
  | f :: fs => (∀ e ∈ f.frees, FreeAt e fs) ∧ FreesOk fs

/-- What is captured comes from a function further out that has local names. -/
def Weak : List Frame → Prop
  | [] => True
  | f :: fs => (f.frees ≠ [] → ∃ g ∈ fs, g.locals ≠ []) ∧ Weak fs

theorem FreeAt.grow {e : Free} {fs gs : List Frame} (hg : GrowAll fs gs) (h : FreeAt e fs) :
    FreeAt e gs := by
  cases fs with
  | nil => exact h.elim
  | cons f fs =>
    obtain ⟨g, gs', rfl, h1, h2⟩ := hg.cons_left
    simp only [FreeAt] at h ⊢
    by_cases hl : e.isLocal = true
    · rw [if_pos hl] at h ⊢
      rw [h1.1]; exact h
    · rw [if_neg hl] at h ⊢
      obtain ⟨x, hx, hid⟩ := h
      obtain ⟨t, ht⟩ := h1.2.2
      refine ⟨x, ?_, hid⟩
      rw [← ht, List.getElem?_append_left]
      · exact hx
      · exact (List.getElem?_eq_some_iff.1 hx).1

theorem grow_mem {fs gs : List Frame} (hg : GrowAll fs gs) {g : Frame} (h : g ∈ gs) :
    ∃ f ∈ fs, g.locals = f.locals := by
  induction fs generalizing gs with
  | nil =>
    cases gs with
    | nil => cases h
    | cons g gs => exact hg.elim
  | cons f fs ih =>
    obtain ⟨g', gs', rfl, h1, h2⟩ := hg.cons_left
    rcases List.mem_cons.1 h with rfl | h
    · exact ⟨f, List.mem_cons_self .., h1.1⟩
    · obtain ⟨f', hf, he⟩ := ih h2 h
      exact ⟨f', List.mem_cons_of_mem _ hf, he⟩

theorem Uniq.grow {fs gs : List Frame} (hg : GrowAll fs gs) (h : Uniq fs) : Uniq gs := by
  induction fs generalizing gs with
  | nil =>
    cases gs with
    | nil => exact h
    | cons g gs => exact hg.elim
  | cons f fs ih =>
    obtain ⟨g, gs', rfl, h1, h2⟩ := hg.cons_left
    refine ⟨?_, ih h2 h.2⟩
    intro l hl a ha m hm
    obtain ⟨f', hf, he⟩ := grow_mem h2 ha
    rw [h1.1] at hl
    rw [he] at hm
    exact h.1 l hl f' hf m hm

/-! ## Looking a name up further out -/

theorem pushFree_spec (f : Frame) (isLocal : Bool) (index id : Nat) (kind : Kind) :
    Grow f (pushFree f isLocal index id kind).1 ∧
    (∃ e, (pushFree f isLocal index id kind).1.frees[(pushFree f isLocal index id kind).2]? = some e
      ∧ e.id = id) ∧
    (∀ e ∈ (pushFree f isLocal index id kind).1.frees, e ∈ f.frees ∨
      e = ⟨isLocal, index, id, kind⟩) := by
  unfold pushFree
  split
  · next i hi =>
    refine ⟨Grow.refl f, ?_, fun e he => Or.inl he⟩
    obtain ⟨hlt, hp, _⟩ := List.findIdx?_eq_some_iff_getElem.1 hi
    exact ⟨f.frees[i], by simp [hlt], by simpa using hp⟩
  · refine ⟨⟨rfl, rfl, List.prefix_append _ _⟩, ?_, ?_⟩
    · exact ⟨⟨isLocal, index, id, kind⟩, by simp, rfl⟩
    · intro e he
      rcases List.mem_append.1 he with he | he
      · exact Or.inl he
      · exact Or.inr (by simpa using he)

theorem toI8_small {i : Nat} (h : i < 128) : toI8 i = (i : Int) := by
  unfold toI8
  have : i % 256 = i := Nat.mod_eq_of_lt (by omega)
  rw [this, if_pos h]

theorem getElem?_lt {α : Type} {l : List α} {i : Nat} {a : α} (h : l[i]? = some a) :
    i < l.length := (List.getElem?_eq_some_iff.1 h).1

def Small (fs : List Frame) : Prop := ∀ f ∈ fs, f.frees.length ≤ 128

/-- What the walk over the functions around does. -/
structure Walk (x : Name) (fs : List Frame) (r : List Frame × Option Hit) : Prop where
  grow : GrowAll fs r.1
  kinds : Kinds r.1
  missing : find x (fs.tail.map vis) = none → r.2 = none
  found : ∀ h id, find x (fs.tail.map vis) = some (h, id) → ∃ hit, r.2 = some hit ∧ hit.id = id ∧
    hit.kind = .var ∧
    (Small r.1 → ∃ f rest e, r.1 = f :: rest ∧ 0 ≤ hit.index ∧
      f.frees[hit.index.toNat]? = some e ∧ e.id = id)
  frees : FreesOk fs → Small r.1 → FreesOk r.1
  weak : Weak fs → Weak r.1

theorem find_cons {x : Name} (hx : x ≠ .lambda) (p : Frame) (rest : List Frame) :
    find x ((p :: rest).map vis) =
      match lookup x p.locals with
      | some l => some (0, l.id)
      | none => (find x (rest.map vis)).map fun r => (r.1 + 1, r.2) := by
  rw [List.map_cons, find, vis_find hx]
  cases lookup x p.locals <;> rfl

theorem find_at {x : Name} (hx : x ≠ .lambda) {fs : List Frame} {h id : Nat}
    (hf : find x (fs.map vis) = some (h, id)) :
    ∃ g l, fs[h]? = some g ∧ l ∈ g.locals ∧ l.id = id := by
  induction fs generalizing h with
  | nil => simp [find] at hf
  | cons f fs ih =>
    rw [find_cons hx] at hf
    cases hl : lookup x f.locals with
    | some l =>
      rw [hl] at hf
      cases hf
      exact ⟨f, l, rfl, (lookup_some hl).1, rfl⟩
    | none =>
      rw [hl] at hf
      cases hq : find x (fs.map vis) with
      | none => rw [hq] at hf; cases hf
      | some q =>
        rw [hq] at hf
        simp only [Option.map_some, Option.some.injEq, Prod.mk.injEq] at hf
        obtain ⟨rfl, rfl⟩ := hf
        obtain ⟨g, l, h1, h2, h3⟩ := ih hq
        exact ⟨g, l, by simpa using h1, h2, h3⟩

theorem weak_grow {fs gs : List Frame} (hg : GrowAll fs gs) (h : ∃ g ∈ fs, g.locals ≠ []) :
    ∃ g ∈ gs, g.locals ≠ [] := by
  induction fs generalizing gs with
  | nil => obtain ⟨g, hm, _⟩ := h; cases hm
  | cons f fs ih =>
    obtain ⟨g, gs', rfl, h1, h2⟩ := hg.cons_left
    obtain ⟨a, ha, hne⟩ := h
    rcases List.mem_cons.1 ha with rfl | ha
    · exact ⟨g, List.mem_cons_self .., by rw [h1.1]; exact hne⟩
    · obtain ⟨b, hb, hbe⟩ := ih h2 ⟨a, ha, hne⟩
      exact ⟨b, List.mem_cons_of_mem _ hb, hbe⟩

theorem kinds_push {f : Frame} {ps : List Frame} (hk : Kinds (f :: ps)) {ps' : List Frame}
    (hk' : Kinds ps') {b : Bool} {i id : Nat} {k : Kind} (h : k = .var) :
    Kinds ((pushFree f b i id k).1 :: ps') := by
  obtain ⟨g1, _, g3⟩ := pushFree_spec f b i id k
  intro a ha
  rcases List.mem_cons.1 ha with rfl | ha
  · refine ⟨by rw [g1.1]; exact (hk f (List.mem_cons_self ..)).1, ?_⟩
    intro e he
    rcases g3 e he with h' | h'
    · exact (hk f (List.mem_cons_self ..)).2 e h'
    · rw [h']; exact h
  · exact hk' a ha

theorem kinds_tail {f : Frame} {ps : List Frame} (hk : Kinds (f :: ps)) : Kinds ps :=
  fun a ha => hk a (List.mem_cons_of_mem _ ha)

theorem kinds_cons {f : Frame} {ps ps' : List Frame} (hk : Kinds (f :: ps)) (hk' : Kinds ps') :
    Kinds (f :: ps') := by
  intro a ha
  rcases List.mem_cons.1 ha with rfl | ha
  · exact hk _ (List.mem_cons_self ..)
  · exact hk' a ha

theorem small_tail {f : Frame} {ps : List Frame} (hk : Small (f :: ps)) : Small ps :=
  fun a ha => hk a (List.mem_cons_of_mem _ ha)

theorem resolveFree_walk {x : Name} (hx : x ≠ .lambda) (fs : List Frame) (hk : Kinds fs) :
    Walk x fs (resolveFree x fs) := by
  induction fs with
  | nil =>
    unfold resolveFree
    exact ⟨trivial, hk, fun _ => rfl, fun h id e => by simp [find] at e, fun h _ => h,
      fun h => h⟩
  | cons f ps ih =>
    cases ps with
    | nil =>
      unfold resolveFree
      exact ⟨GrowAll.refl _, hk, fun _ => rfl, fun h id e => by simp [find] at e, fun h _ => h,
        fun h => h⟩
    | cons p rest =>
      replace ih := ih (kinds_tail hk)
      have hfind := find_cons hx p rest
      unfold resolveFree
      cases hl : lookup x p.locals with
      | some l =>
        rw [hl] at hfind
        obtain ⟨hmem, hname⟩ := lookup_some hl
        have hkind : l.kind = .var :=
          ((hk p (List.mem_cons_of_mem _ (List.mem_cons_self ..))).1 l hmem).2
            (by rw [hname]; exact hx)
        have hnf : ¬ l.kind = .fn := by rw [hkind]; decide
        simp only [hl, if_neg hnf]
        obtain ⟨g1, ⟨e, he, hid⟩, g3⟩ := pushFree_spec f true 0 l.id l.kind
        refine ⟨⟨g1, GrowAll.refl _⟩, kinds_push hk (kinds_tail hk) hkind, ?_, ?_, ?_,
          fun hw => ⟨fun _ => ⟨p, List.mem_cons_self .., List.ne_nil_of_mem hmem⟩, hw.2⟩⟩
        · intro h; rw [List.tail_cons, hfind] at h; cases h
        · intro h id hh
          rw [List.tail_cons, hfind] at hh
          cases hh
          refine ⟨_, rfl, rfl, hkind, fun hs => ⟨_, _, e, rfl, ?_⟩⟩
          have hlen := hs _ (List.mem_cons_self ..)
          have := getElem?_lt he
          dsimp only at hlen ⊢
          rw [toI8_small (by omega)]
          exact ⟨by omega, by rw [Int.toNat_natCast]; exact he, hid⟩
        · intro hf _
          refine ⟨?_, hf.2⟩
          intro e he
          rcases g3 e he with h | h
          · exact hf.1 e h
          · subst h
            simp only [FreeAt, if_true]
            exact ⟨l, hmem, rfl, hkind⟩
      | none =>
        rw [hl] at hfind
        simp only [hl]
        generalize hr : resolveFree x (p :: rest) = r at ih
        obtain ⟨ps', o⟩ := r
        cases o with
        | none =>
          refine ⟨⟨Grow.refl f, ih.grow⟩, kinds_cons hk ih.kinds, fun _ => rfl, ?_, ?_,
            fun hw => ⟨fun hne => weak_grow ih.grow (hw.1 hne), ih.weak hw.2⟩⟩
          · intro h id hh
            rw [List.tail_cons, hfind] at hh
            cases hq : find x (rest.map vis) with
            | none => rw [hq] at hh; cases hh
            | some q =>
              obtain ⟨hit, h1, _⟩ := ih.found q.1 q.2 hq
              cases h1
          · intro hf hs
            exact ⟨fun e he => (hf.1 e he).grow ih.grow, ih.frees hf.2 (small_tail hs)⟩
        | some hit =>
          have hsome : ∃ q, find x (rest.map vis) = some q := by
            cases hq : find x (rest.map vis) with
            | none => have := ih.missing hq; cases this
            | some q => exact ⟨q, rfl⟩
          obtain ⟨q, hq⟩ := hsome
          obtain ⟨hit', h1, hid, hkind, hplace⟩ := ih.found q.1 q.2 hq
          cases h1
          dsimp only at ih hplace ⊢
          split
          · next hpos =>
            obtain ⟨g1, ⟨e, he, heid⟩, g3⟩ := pushFree_spec f false hit.index.toNat hit.id hit.kind
            refine ⟨⟨g1, ih.grow⟩, kinds_push hk ih.kinds hkind, ?_, ?_, ?_,
              fun hw => ⟨fun _ => weak_grow ih.grow ?_, ih.weak hw.2⟩⟩
            · intro h; rw [List.tail_cons, hfind, hq] at h; cases h
            · intro h id hh
              rw [List.tail_cons, hfind, hq] at hh
              cases hh
              refine ⟨_, rfl, hid, hkind, fun hs => ⟨_, _, e, rfl, ?_⟩⟩
              have hlen := hs _ (List.mem_cons_self ..)
              have := getElem?_lt he
              dsimp only at hlen ⊢
              rw [toI8_small (by omega)]
              exact ⟨by omega, by rw [Int.toNat_natCast]; exact he, by rw [heid, hid]⟩
            · intro hf hs
              refine ⟨?_, ih.frees hf.2 (small_tail hs)⟩
              intro a ha
              rcases g3 a ha with h | h
              · exact (hf.1 a h).grow ih.grow
              · subst h
                obtain ⟨p', rest', g, h1, _, h3, h4⟩ := hplace (small_tail hs)
                subst h1
                simp only [FreeAt, Bool.false_eq_true, if_false]
                exact ⟨g, h3, by rw [h4, hid]⟩
            · obtain ⟨g, l, f1, f2, _⟩ := find_at hx hq
              exact ⟨g, List.mem_cons_of_mem _ (List.mem_of_getElem? f1), List.ne_nil_of_mem f2⟩
          · next hneg =>
            refine ⟨⟨Grow.refl f, ih.grow⟩, kinds_cons hk ih.kinds, ?_, ?_, ?_,
              fun hw => ⟨fun hne => weak_grow ih.grow (hw.1 hne), ih.weak hw.2⟩⟩
            · intro h; rw [List.tail_cons, hfind, hq] at h; cases h
            · intro h id hh
              rw [List.tail_cons, hfind, hq] at hh
              cases hh
              refine ⟨_, rfl, hid, hkind, fun hs => ?_⟩
              obtain ⟨_, _, _, _, h0, _⟩ := hplace (small_tail hs)
              omega
            · intro hf hs
              exact ⟨fun e he => (hf.1 e he).grow ih.grow, ih.frees hf.2 (small_tail hs)⟩

end Nature.Capture
