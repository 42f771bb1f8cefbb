import Verif.Link.Extract

/-!
# C108: every name is linked to the one definition that the rules of ELF give it

`link objs entry` models what the linker does with its input objects up to the check for undefined
symbols: it gives which objects are linked, and for every name the definition it gets.
-/

namespace Nature.Link

open Spec (Has Defines Requests Needs Useful Grown Before)

theorem start_fuel (objs : List Obj) (sel : Nat → Bool) :
    (List.range objs.length).countP (fun i => !sel i) < objs.length + 1 := by
  have := List.countP_le_length (p := fun i => !sel i) (l := List.range objs.length)
  simp at this
  omega

theorem extract_of (objs : List Obj) (entry : String) (sel0 : Nat → Bool)
    (r : Except Err ((Nat → Bool) × Table)) (h : extract objs entry (objs.length + 1) sel0 = r)
    (hg : Grown objs entry sel0) :
    match (generalizing := false) r with
    | .ok (sel', t) => Grown objs entry sel' ∧
        (∀ n, Told (entries objs sel') n (t n) ∧
          ((t n).strongReference = true ↔ Needs objs entry sel' n) ∧
          ((t n).entryReference = true ↔ n = entry)) ∧
        ∀ e ∈ entriesFrom (fun i o => o.isLazy && !sel' i) 0 objs, rank t e.2 = none
    | .error err => ∃ sel', Grown objs entry sel' ∧ Clash (entries objs sel') err := by
  have := extract_spec objs entry (objs.length + 1) sel0 hg (start_fuel objs _)
  rw [h] at this
  exact this

theorem link_ok (objs : List Obj) (entry : String) (sel : Nat → Bool) (t : Table)
    (h : link objs entry = .ok (sel, t)) :
    Grown objs entry sel ∧
      (∀ n, Told (entries objs sel) n (t n) ∧
        ((t n).strongReference = true ↔ Needs objs entry sel n) ∧
        ((t n).entryReference = true ↔ n = entry)) ∧
      (∀ e ∈ entriesFrom (fun i o => o.isLazy && !sel i) 0 objs, rank t e.2 = none) ∧
      ∀ e ∈ entries objs sel, missing t e = false := by
  unfold link at h
  split at h
  · simp at h
  · rename_i sel' t' he
    have hs := extract_of _ _ _ _ he Grown.start
    split at h
    · simp at h
    · rename_i hm
      simp only [Except.ok.injEq, Prod.mk.injEq] at h
      obtain ⟨rfl, rfl⟩ := h
      refine ⟨hs.1, hs.2.1, hs.2.2, ?_⟩
      intro e he
      have := List.find?_eq_none.mp hm e he
      simpa using this

theorem grown_start (objs : List Obj) (entry : String) (sel : Nat → Bool) (h : Grown objs entry sel)
    (i : Nat) (o : Obj) (ho : objs[i]? = some o) (hl : o.isLazy = false) : sel i = true := by
  induction h with
  | start => simp [ho, hl]
  | add _ _ ih => simp only; split
                  · rfl
                  · exact ih

/-- A name that a linked object needs, and that some object at all has a definition of or asks for
storage for, is defined or requested in a linked object. -/
theorem closed_of (objs : List Obj) (entry : String) (sel : Nat → Bool) (t : Table)
    (hg : Grown objs entry sel)
    (ht : ∀ n, Told (entries objs sel) n (t n) ∧
      ((t n).strongReference = true ↔ Needs objs entry sel n) ∧
      ((t n).entryReference = true ↔ n = entry))
    (hr : ∀ e ∈ entriesFrom (fun i o => o.isLazy && !sel i) 0 objs, rank t e.2 = none)
    (s : Sym) (p : Pos) (hn : Needs objs entry sel s.name) (hp : Has objs p s)
    (hk : ∀ u, s.kind ≠ .undefined u) :
    (∃ weak q, Defines objs sel s.name weak q) ∨
      ∃ size align tls weak, Requests objs sel s.name size align tls weak := by
  by_cases hs : sel p.1 = true
  · obtain ⟨n, k, w⟩ := s
    cases k with
    | undefined u => exact absurd rfl (hk u)
    | common a b c => exact Or.inr ⟨a, b, c, w, p, hs, hp⟩
    | regular => exact Or.inl ⟨w, p, hs, hp⟩
  · obtain ⟨o, h1, h2⟩ := hp
    have hl : o.isLazy = true := by
      rcases hx : o.isLazy with _ | _
      · exact absurd (grown_start objs entry sel hg p.1 o h1 hx) hs
      · rfl
    have hrank := hr (p, s) ((mem_lazy objs sel p s).mpr ⟨by simpa using hs, o, h1, hl, h2⟩)
    rcases hd : (t s.name).definition with _ | q
    · have := (rank_none t s hrank hk hd).1
      rw [(ht s.name).2.1.mpr hn] at this
      simp at this
    · have := (ht s.name).1.hit q hd
      exact Or.inl ⟨_, q, (mem_entries _ _ _ _).mp this⟩

/-- Which objects are linked: the files of the command line, and members of archives that were useful
when they were added; in the end every name that is needed, the start of the program aside, is
there, and the start is if any object at all has it. -/
theorem C108_objects_partial (objs : List Obj) (entry : String) (sel : Nat → Bool) (t : Table)
    (h : link objs entry = .ok (sel, t)) :
    Grown objs entry sel ∧
      (∀ i o, objs[i]? = some o → o.isLazy = false → sel i = true) ∧
      ∀ name, Needs objs entry sel name →
        (name ≠ entry ∨ ∃ p k w, Has objs p ⟨name, k, w⟩ ∧ ∀ u, k ≠ .undefined u) →
        (∃ weak q, Defines objs sel name weak q) ∨
          ∃ size align tls weak, Requests objs sel name size align tls weak := by
  obtain ⟨hg, ht, hr, hm⟩ := link_ok objs entry sel t h
  refine ⟨hg, fun i o => grown_start objs entry sel hg i o, ?_⟩
  intro name hn hor
  rcases hor with he | ⟨p, k, w, h1, h2⟩
  · rcases hn with hn | ⟨p, h1, h2⟩
    · exact absurd hn he
    · have hmiss := hm _ ((mem_entries objs sel p _).mpr ⟨h1, h2⟩)
      have hneed := (ht name).2.1.mpr (Or.inr ⟨p, h1, h2⟩)
      have hent : (t name).entryReference = false := by
        rcases hx : (t name).entryReference with _ | _
        · rfl
        · exact absurd ((ht name).2.2.mp hx) he
      simp only [missing, hneed, hent] at hmiss
      rcases hd : (t name).definition with _ | q
      · right
        have hc : (t name).common = true := by
          rw [hd] at hmiss; simpa using hmiss
        obtain ⟨q, a, b, c, w, hq⟩ := ((ht name).1.common hd).mp hc
        exact ⟨a, b, c, w, q, (mem_entries _ _ _ _).mp hq⟩
      · exact Or.inl ⟨_, q, (mem_entries _ _ _ _).mp ((ht name).1.hit q hd)⟩
  · exact closed_of objs entry sel t hg ht hr ⟨name, k, w⟩ p hn h1 h2

/-- Which definition a name gets: the strong one, of which there is only one; else the first weak one;
else, if storage is requested, storage of the largest size and alignment asked for; else none. -/
theorem C108_definition_partial (objs : List Obj) (entry : String) (sel : Nat → Bool) (t : Table)
    (h : link objs entry = .ok (sel, t)) (name : String) :
    (∀ p, Defines objs sel name false p →
      (t name).definition = some p ∧ ∀ q, Defines objs sel name false q → q = p) ∧
    ((∀ p, ¬ Defines objs sel name false p) → (∃ p, Defines objs sel name true p) →
      ∃ p, (t name).definition = some p ∧ Defines objs sel name true p ∧
        ∀ q, Defines objs sel name true q → q = p ∨ Before p q) ∧
    ((∀ p w, ¬ Defines objs sel name w p) →
      (t name).definition = none ∧
      ((t name).common = true ↔ ∃ size align tls w, Requests objs sel name size align tls w) ∧
      (∀ size align tls w, Requests objs sel name size align tls w →
        size ≤ (t name).commonSize ∧ align ≤ (t name).commonAlign ∧ 1 ≤ (t name).commonAlign ∧
          tls = (t name).commonTls) ∧
      ((t name).common = true →
        (∃ align tls w, Requests objs sel name (t name).commonSize align tls w) ∧
        ∃ size align tls w, Requests objs sel name size align tls w ∧
          ((t name).commonAlign = align ∨ (t name).commonAlign = 1))) := by
  obtain ⟨hg, ht, hr, hm⟩ := link_ok objs entry sel t h
  have tl := (ht name).1
  have hmem : ∀ p k w, (p, (⟨name, k, w⟩ : Sym)) ∈ entries objs sel ↔
      sel p.1 = true ∧ Has objs p ⟨name, k, w⟩ := fun p k w => mem_entries _ _ _ _
  refine ⟨?_, ?_, ?_⟩
  · intro p hp
    have hp' := (hmem p .regular false).mpr hp
    rcases hd : (t name).definition with _ | d
    · exact absurd hp' (tl.noneRegular hd p false)
    · rcases hw : (t name).definitionWeak with _ | _
      · have e := tl.strong d hd hw p hp'
        refine ⟨by rw [e], fun q hq => ?_⟩
        rw [e, tl.strong d hd hw q ((hmem q .regular false).mpr hq)]
      · exact absurd hp' ((tl.weak d hd hw).1 p)
  · rintro hns ⟨p, hp⟩
    have hp' := (hmem p .regular true).mpr hp
    rcases hd : (t name).definition with _ | d
    · exact absurd hp' (tl.noneRegular hd p true)
    · have hhit := tl.hit d hd
      rcases hw : (t name).definitionWeak with _ | _
      · rw [hw] at hhit
        exact absurd ((hmem _ _ _).mp hhit) (hns d)
      · rw [hw] at hhit
        refine ⟨d, rfl, (hmem _ _ _).mp hhit, fun q hq => ?_⟩
        exact (tl.weak d hd hw).2 q ((hmem q .regular true).mpr hq)
  · intro hn
    have hd : (t name).definition = none := by
      rcases hd : (t name).definition with _ | d
      · rfl
      · exact absurd ((hmem _ _ _).mp (tl.hit d hd)) (hn d _)
    have hreq : (∃ p size align tls w, (p, (⟨name, .common size align tls, w⟩ : Sym)) ∈
        entries objs sel) ↔ ∃ size align tls w, Requests objs sel name size align tls w := by
      constructor
      · rintro ⟨p, a, b, c, w, hx⟩
        exact ⟨a, b, c, w, p, (hmem _ _ _).mp hx⟩
      · rintro ⟨a, b, c, w, p, hx⟩
        exact ⟨p, a, b, c, w, (hmem _ _ _).mpr hx⟩
    refine ⟨hd, by rw [tl.common hd, hreq], ?_, ?_⟩
    · rintro size align tls w ⟨p, hp⟩
      obtain ⟨b1, b2, b3⟩ := tl.bounds hd p size align tls w ((hmem _ _ _).mpr hp)
      unfold al at b2
      refine ⟨b1, ?_, ?_, b3⟩
      · split at b2 <;> omega
      · split at b2 <;> omega
    · intro hc
      constructor
      · obtain ⟨p, b, c, w, hp⟩ := tl.sizeHit hd hc
        exact ⟨b, c, w, p, (hmem _ _ _).mp hp⟩
      · obtain ⟨p, a, b, c, w, he, hp⟩ := tl.alignHit hd hc
        refine ⟨a, b, c, w, ⟨p, (hmem _ _ _).mp hp⟩, ?_⟩
        unfold al at he
        split at he
        · exact Or.inl he.symm
        · exact Or.inr he.symm

/-- Why the linker refuses its input: a name with two strong definitions, or requests for storage that
differ in being per thread, in objects that are to be linked; or a name that is needed and that no
object has a definition of or asks for storage for, not even a member of an archive. -/
theorem C108_refused (objs : List Obj) (entry : String) (err : Err) (h : link objs entry = .error err) :
    ∃ sel, Grown objs entry sel ∧
      match (generalizing := false) err with
      | .duplicate name => ∃ p q, p ≠ q ∧ Defines objs sel name false p ∧ Defines objs sel name false q
      | .tlsConflict name => ∃ a b a' b' w w', Requests objs sel name a b false w ∧
          Requests objs sel name a' b' true w'
      | .undefinedSymbol name => Needs objs entry sel name ∧
          ∀ p k w, Has objs p ⟨name, k, w⟩ → ∃ u, k = .undefined u
      | .endless => False := by
  unfold link at h
  split at h
  · rename_i err' he
    have hs := extract_of _ _ _ _ he Grown.start
    obtain rfl := Except.error.inj h
    obtain ⟨sel, hg, hc⟩ := hs
    refine ⟨sel, hg, ?_⟩
    cases err' with
    | duplicate n =>
      obtain ⟨p, q, hne, h1, h2⟩ := hc
      exact ⟨p, q, hne, (mem_entries _ _ _ _).mp h1, (mem_entries _ _ _ _).mp h2⟩
    | tlsConflict n =>
      obtain ⟨p, q, a, b, a', b', w, w', tls, h1, h2⟩ := hc
      have h1' := (mem_entries _ _ _ _).mp h1
      have h2' := (mem_entries _ _ _ _).mp h2
      cases tls with
      | false => exact ⟨a, b, a', b', w, w', ⟨p, h1'⟩, ⟨q, h2'⟩⟩
      | true => exact ⟨a', b', a, b, w', w, ⟨q, h2'⟩, ⟨p, h1'⟩⟩
    | undefinedSymbol n => exact hc.elim
    | endless => exact hc
  · rename_i sel t he
    have hs := extract_of _ _ _ _ he Grown.start
    obtain ⟨hg, ht, hr⟩ := hs
    split at h
    · rename_i e hm
      obtain rfl := Except.error.inj h
      refine ⟨sel, hg, ?_⟩
      simp only
      have hmiss := List.find?_some hm
      simp only [missing, Bool.and_eq_true, Bool.not_eq_true'] at hmiss
      have hneed := (ht e.2.name).2.1.mp hmiss.1.1.1
      refine ⟨hneed, ?_⟩
      intro p k w hp
      rcases k with u | ⟨a, b, c⟩ | _
      · exact ⟨u, rfl⟩
      all_goals
        exfalso
        have hd : (t e.2.name).definition = none := by
          rcases hd : (t e.2.name).definition with _ | d
          · rfl
          · rw [hd] at hmiss; simp at hmiss
        rcases closed_of objs entry sel t hg ht hr ⟨e.2.name, _, w⟩ p hneed hp (by simp) with ⟨w', q, hq⟩ | ⟨a', b', c', w', q, hq⟩
        · exact (ht e.2.name).1.noneRegular hd q w' ((mem_entries _ _ _ _).mpr hq)
        · have := ((ht e.2.name).1.common hd).mpr ⟨q, a', b', c', w', (mem_entries _ _ _ _).mpr hq⟩
          rw [this] at hmiss; simp at hmiss
    · simp at h

/-- So input is linked if no two objects define a name strongly, all requests for a name agree in being
per thread, and every name that an object needs is defined or requested in some object. -/
theorem C108_accepted (objs : List Obj) (entry : String)
    (h1 : ∀ name p q, Has objs p ⟨name, .regular, false⟩ → Has objs q ⟨name, .regular, false⟩ → p = q)
    (h2 : ∀ name p q a b a' b' w w', Has objs p ⟨name, .common a b false, w⟩ →
      ¬ Has objs q ⟨name, .common a' b' true, w'⟩)
    (h3 : ∀ name p, name = entry ∨ Has objs p ⟨name, .undefined true, false⟩ →
      ∃ q k w, Has objs q ⟨name, k, w⟩ ∧ ∀ u, k ≠ .undefined u) :
    ∃ sel t, link objs entry = .ok (sel, t) := by
  rcases h : link objs entry with err | ⟨sel, t⟩
  · obtain ⟨sel, hg, hc⟩ := C108_refused objs entry err h
    exfalso
    cases err with
    | duplicate n =>
      obtain ⟨p, q, hne, d1, d2⟩ := hc
      exact hne (h1 n p q d1.2 d2.2)
    | tlsConflict n =>
      obtain ⟨a, b, a', b', w, w', ⟨p, r1⟩, ⟨q, r2⟩⟩ := hc
      exact h2 n p q a b a' b' w w' r1.2 r2.2
    | undefinedSymbol n =>
      obtain ⟨hn, hall⟩ := hc
      obtain ⟨q, k, w, hq, hk⟩ : ∃ q k w, Has objs q ⟨n, k, w⟩ ∧ ∀ u, k ≠ .undefined u := by
        rcases hn with hn | ⟨p, _, hp⟩
        · exact h3 n (0, 0) (Or.inl hn)
        · exact h3 n p (Or.inr hp)
      obtain ⟨u, hu⟩ := hall q k w hq
      exact hk u hu
    | endless => exact hc
  · exact ⟨sel, t, rfl⟩

/-! ## Cases that meet the hypotheses -/

/-- A program of two files and an archive of three members, two of which are needed. -/
def demo : List Obj :=
  [⟨false, [⟨"_start", .regular, false⟩, ⟨"print", .undefined true, false⟩, ⟨"hook", .undefined true, true⟩]⟩,
   ⟨false, [⟨"buf", .common 16 8 false, false⟩, ⟨"buf2", .common 8 8 false, false⟩]⟩,
   ⟨true, [⟨"hook", .regular, false⟩]⟩,
   ⟨true, [⟨"print", .regular, true⟩]⟩,
   ⟨true, [⟨"print", .regular, false⟩, ⟨"write", .undefined true, false⟩, ⟨"buf", .common 64 4 false, false⟩]⟩,
   ⟨true, [⟨"write", .regular, false⟩]⟩]

/-- The objects that are linked, and what some names get. -/
def shown (objs : List Obj) (names : List String) : Option (List Bool × List (Option Pos × Nat × Nat)) :=
  match link objs "_start" with
  | .error _ => none
  | .ok (sel, t) => some ((List.range objs.length).map sel,
      names.map fun n => ((t n).definition, (t n).commonSize, (t n).commonAlign))

example : shown demo ["print", "write", "hook", "buf"] =
    some ([true, true, false, false, true, true],
      [(some (4, 0), 0, 0), (some (5, 0), 0, 0), (none, 0, 0), (none, 64, 8)]) := by decide +kernel

example : link [⟨false, [⟨"_start", .regular, false⟩]⟩, ⟨false, [⟨"_start", .regular, false⟩]⟩] "_start" =
    .error (.duplicate "_start") := by rfl

example : link [⟨false, [⟨"_start", .regular, false⟩, ⟨"f", .undefined true, false⟩]⟩] "_start" =
    .error (.undefinedSymbol "f") := by rfl

/-! ## Where it does not hold -/

/-- The ELF specification lets a common symbol win over a weak definition; here the weak definition
wins, and the storage of the size asked for is not reserved. -/
theorem C108_common_counterexample :
    shown [⟨false, [⟨"_start", .regular, false⟩, ⟨"buf", .common 64 8 false, false⟩]⟩,
      ⟨false, [⟨"buf", .regular, true⟩]⟩] ["buf"] = some ([true, true], [(some (1, 0), 64, 8)]) := by
  decide +kernel

/-- A member of an archive that only asks for storage for a name for which storage is already asked for
is linked although nothing needs it: here it makes linking fail. -/
theorem C108_needless_counterexample :
    link [⟨false, [⟨"_start", .regular, false⟩, ⟨"buf", .common 8 8 false, false⟩, ⟨"f", .regular, false⟩]⟩,
      ⟨false, [⟨"buf", .undefined true, false⟩]⟩,
      ⟨true, [⟨"buf", .common 8 8 false, false⟩, ⟨"f", .regular, false⟩]⟩] "_start" =
        .error (.duplicate "f") ∧
    (∃ r, link [⟨false, [⟨"_start", .regular, false⟩, ⟨"buf", .common 8 8 false, false⟩,
        ⟨"f", .regular, false⟩]⟩,
      ⟨false, [⟨"buf", .undefined true, false⟩]⟩] "_start" = .ok r) := by
  exact ⟨rfl, _, rfl⟩

end Nature.Link
