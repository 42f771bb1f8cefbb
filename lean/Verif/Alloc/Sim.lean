import Verif.Alloc.Code
import Verif.Alloc.Props
/-
Proofs about straight-line code after register allocation.
-/
namespace Nature.Alloc
open Nature.Ranges (Range Covers Sorted NonEmpty)

/-- A place that a value of this length fills exactly. -/
def Fit (v : Val) : Home → Prop
  | .reg _ => True
  | .stack _ n => (v.length : Int) = n
  | .again => False

theorem read_write_same {m : Mach} {v : Val} {h : Home} (hf : Fit v h) : (m.write v h).read h = v := by
  cases h with
  | reg r => simp [Mach.write, Mach.read]
  | again => exact absurd hf id
  | stack off n =>
    simp only [Fit] at hf
    simp only [Mach.write, Mach.read]
    apply List.ext_getElem
    · simp; omega
    · intro i h1 h2
      simp only [List.getElem_map, List.getElem_range]
      rw [if_pos (by omega), show (off + (i : Int) - off).toNat = i by omega]
      simp [List.getD_eq_getElem?_getD, h2]

theorem read_write_apart {m : Mach} {v : Val} {h g : Home} (hf : Fit v h) (ha : Apart h g) :
    (m.write v h).read g = m.read g := by
  cases h with
  | again => exact absurd hf id
  | reg r =>
    cases g with
    | reg r' =>
      simp only [Apart] at ha
      simp only [Mach.write, Mach.read]
      rw [if_neg (fun e => ha e.symm)]
    | stack _ _ => rfl
    | again => rfl
  | stack off n =>
    cases g with
    | reg r' => rfl
    | again => rfl
    | stack off' n' =>
      simp only [Apart] at ha
      simp only [Fit] at hf
      simp only [Mach.write, Mach.read]
      apply List.map_congr_left
      intro i hi
      rw [List.mem_range] at hi
      rw [if_neg (by omega)]

/-- After a series of writes, a place holds `v` if every write either puts `v` there or is elsewhere,
and it held `v` before or is written. -/
theorem fold_read {v : Val} {g : Home} : ∀ (l : List (Val × Home)) (m : Mach),
    (∀ x ∈ l, Fit x.1 x.2 ∧ ((x.1 = v ∧ x.2 = g) ∨ Apart x.2 g)) →
    (m.read g = v ∨ (v, g) ∈ l) → (l.foldl (fun m x => m.write x.1 x.2) m).read g = v
  | [], m, _, h => by
    rcases h with h | h
    · exact h
    · cases h
  | x :: l, m, hl, h => by
    rw [List.foldl_cons]
    obtain ⟨hf, hx⟩ := hl x (List.mem_cons_self ..)
    apply fold_read l _ (fun y hy => hl y (List.mem_cons_of_mem _ hy))
    rcases hx with ⟨e1, e2⟩ | ha
    · left
      rw [← e2, ← e1]
      exact read_write_same hf
    · rcases h with h | h
      · left
        rw [read_write_apart hf ha]
        exact h
      · rcases List.mem_cons.1 h with e | e
        · left
          rw [← e] at hf ⊢
          exact read_write_same hf
        · right; exact e

theorem movePlaces_mem {F : Func} {s : St} {p : Int} : ∀ {ms : List Move} {l : List (Home × Home)},
    movePlaces F s p ms = some l →
    (∀ x ∈ l, ∃ m ∈ ms, m.pos = p ∧ place F s (moveVar F s m) p true = some x.1 ∧
      place F s (moveVar F s m) p false = some x.2) ∧
    (∀ m ∈ ms, m.pos = p → ∃ x ∈ l, place F s (moveVar F s m) p true = some x.1 ∧
      place F s (moveVar F s m) p false = some x.2)
  | [], l, h => by
    rw [movePlaces] at h; cases h
    exact ⟨fun x hx => (by cases hx), fun m hm => (by cases hm)⟩
  | m :: ms, l, h => by
    rw [movePlaces] at h
    cases e : movePlaces F s p ms with
    | none => rw [e] at h; cases h
    | some l' =>
      rw [e] at h
      obtain ⟨i1, i2⟩ := movePlaces_mem e
      by_cases hp : m.pos = p
      · simp only [if_pos hp] at h
        cases ha : place F s (moveVar F s m) p true with
        | none => rw [ha] at h; cases h
        | some a =>
          cases hb : place F s (moveVar F s m) p false with
          | none => rw [ha, hb] at h; cases h
          | some b =>
            rw [ha, hb] at h
            cases h
            constructor
            · intro x hx
              rcases List.mem_cons.1 hx with rfl | hx
              · exact ⟨m, List.mem_cons_self .., hp, ha, hb⟩
              · obtain ⟨q, h1, h2⟩ := i1 x hx
                exact ⟨q, List.mem_cons_of_mem _ h1, h2⟩
            · intro q hq hqp
              rcases List.mem_cons.1 hq with rfl | hq
              · exact ⟨(a, b), List.mem_cons_self .., ha, hb⟩
              · obtain ⟨x, h1, h2⟩ := i2 q hq hqp
                exact ⟨x, List.mem_cons_of_mem _ h1, h2⟩
      · simp only [if_neg hp] at h
        cases h
        constructor
        · intro x hx
          obtain ⟨q, h1, h2⟩ := i1 x hx
          exact ⟨q, List.mem_cons_of_mem _ h1, h2⟩
        · intro q hq hqp
          rcases List.mem_cons.1 hq with rfl | hq
          · exact absurd hqp hp
          · exact i2 q hq hqp

theorem movePlaces_some {F : Func} {s : St} {p : Int} : ∀ {ms : List Move},
    (∀ m ∈ ms, m.pos = p → (place F s (moveVar F s m) p true).isSome = true ∧
      (place F s (moveVar F s m) p false).isSome = true) → ∃ l, movePlaces F s p ms = some l
  | [], _ => ⟨[], rfl⟩
  | m :: ms, h => by
    obtain ⟨l, e⟩ := movePlaces_some (ms := ms) (fun q hq => h q (List.mem_cons_of_mem _ hq))
    rw [movePlaces, e]
    by_cases hp : m.pos = p
    · obtain ⟨h1, h2⟩ := h m (List.mem_cons_self ..) hp
      obtain ⟨a, ha⟩ := Option.isSome_iff_exists.1 h1
      obtain ⟨b, hb⟩ := Option.isSome_iff_exists.1 h2
      exact ⟨(a, b) :: l, by simp only [if_pos hp, ha, hb]⟩
    · exact ⟨l, by simp only [if_neg hp]⟩

section
variable {F : Func} {fuel : Nat} {s : St} {c : Code} {a b : Int}

/-- The place of a live variable is one that can be written. -/
theorem place_fit (hF : F.Ok) (hno : NoHoist F) (h : run F fuel = some s) (hc : Fits F c a b)
    {k : Nat} {v : Var} (hk : F.vars[k]? = some v) {p : Int} (hl : Live v p) :
    ∃ g, place F s k p false = some g ∧ ∀ x : Val, (x.length : Int) = v.size → Fit x g := by
  obtain ⟨P, x, I, e, hx, _, _⟩ := place_out hF hno h hk hl
  refine ⟨_, e, ?_⟩
  intro y hy
  obtain ⟨x1, x2, x3, x4, x5, x6⟩ := part_facts I.geo hk hx
  rcases homeOf_cases s x with ⟨_, q⟩ | ⟨_, q0, q⟩ | ⟨_, _, q⟩
  · rw [q]; trivial
  · rw [x3, (I.geo.root k v hk).2.1, (hc.plain v (List.mem_of_getElem? hk)).2] at q0
    cases q0
  · rw [q, x6]; exact hy

theorem moveVar_eq {m : Move} {k : Nat}
    (h : (s.heap m.src).parent.getD m.src = F.cfg.nregs + k) : moveVar F s m = k := by
  rw [moveVar, h]; omega

/-- The operation of a position finds its operands and leaves everything else that is needed. -/
theorem dstOp_ok (hF : F.Ok) (hno : NoHoist F) (h : run F fuel = some s) (hc : Fits F c a b)
    {p : Int} (hp : a < p) (hpb : p ≤ b) (junk : Int → Nat → Val) {env : Nat → Val} {m : Mach}
    (hh : Holds F s (p - 1) env m) :
    ∃ m1, dstOp F s c junk p m = some (m1, (srcStep c p env).2) ∧
      (∀ k, (∀ o, c p = some o → o.out ≠ some k) → (srcStep c p env).1 k = env k) ∧
      (∀ g, (∀ o, c p = some o → (∀ r ∈ o.clob, g ≠ .reg r) ∧
        ∀ d h', o.out = some d → place F s d p false = some h' → Apart h' g) → m1.read g = m.read g) ∧
      (∀ o d, c p = some o → o.out = some d → ∃ v g, F.vars[d]? = some v ∧ place F s d p false = some g ∧
        m1.read g = (srcStep c p env).1 d ∧ (((srcStep c p env).1 d).length : Int) = v.size) := by
  rw [dstOp, srcStep]
  cases hcp : c p with
  | none =>
    refine ⟨m, rfl, fun k _ => rfl, fun g _ => rfl, fun o d ho => (by cases ho)⟩
  | some o =>
    have hins : ∀ ks : List Nat, (∀ k ∈ ks, k ∈ o.ins) →
        ∃ hs, places F s p true ks = some hs ∧ hs.map m.read = ks.map env := by
      intro ks
      induction ks with
      | nil => intro _; exact ⟨[], rfl, rfl⟩
      | cons k ks ih =>
        intro hks
        obtain ⟨hs, e1, e2⟩ := ih (fun x hx => hks x (List.mem_cons_of_mem _ hx))
        obtain ⟨v, hv, hl⟩ := hc.reads p hp hpb o hcp k (hks k (List.mem_cons_self ..))
        obtain ⟨_, g, hg, hr⟩ := hh k v hv hl
        rw [← C87_reads_partial hF hno h hv hl] at hg
        exact ⟨g :: hs, by rw [places, hg, e1], by rw [List.map_cons, List.map_cons, hr, e2]⟩
    obtain ⟨hs, e1, e2⟩ := hins o.ins (fun _ => id)
    simp only [e1, e2]
    cases hout : o.out with
    | none =>
      refine ⟨_, rfl, fun k _ => rfl, ?_, ?_⟩
      · intro g hg
        obtain ⟨hg, _⟩ := hg o rfl
        cases g with
        | reg r =>
          simp only [Mach.read]
          rw [if_neg (fun hr => hg r hr rfl)]
        | stack _ _ => rfl
        | again => rfl
      · intro o' d ho hd
        cases ho
        rw [hout] at hd; cases hd
    | some d =>
      obtain ⟨v, hv, hl, hsz⟩ := hc.defs p hp hpb o hcp d hout
      obtain ⟨g, hg, hfit⟩ := place_fit hF hno h hc hv hl
      simp only [hg]
      refine ⟨_, rfl, ?_, ?_, ?_⟩
      · intro k hk
        exact if_neg fun e => hk o rfl (by rw [hout, e])
      · intro g' hg'
        obtain ⟨h1, h2⟩ := hg' o rfl
        rw [read_write_apart (hfit _ (hsz _)) (h2 d g hout hg)]
        cases g' with
        | reg r =>
          simp only [Mach.read]
          rw [if_neg (fun hr => h1 r hr rfl)]
        | stack _ _ => rfl
        | again => rfl
      · intro o' d' ho hd
        cases ho
        rw [hout] at hd; cases hd
        refine ⟨v, g, hv, hg, ?_, ?_⟩
        · rw [read_write_same (hfit _ (hsz _)), if_pos rfl]
        · rw [if_pos rfl]; exact hsz _

theorem apart_symm {g h : Home} (hh : Apart g h) : Apart h g := by
  cases g <;> cases h <;> simp only [Apart] at hh ⊢
  · exact fun e => hh e.symm
  · exact hh.symm

/-- One position. -/
theorem step_ok (hF : F.Ok) (hno : NoHoist F) (h : run F fuel = some s) (hc : Fits F c a b)
    (hcalm : Calm F s c) {p : Int} (hp : a < p) (hpb : p ≤ b) (junk : Int → Nat → Val)
    {env : Nat → Val} {m : Mach} (hh : Holds F s (p - 1) env m) :
    ∃ m2, dstStep F s c junk p m = some (m2, (srcStep c p env).2) ∧
      Holds F s p (srcStep c p env).1 m2 := by
  obtain ⟨m1, e1, same, keep, out⟩ := dstOp_ok hF hno h hc hp hpb junk hh
  -- the variables that are moved
  have hmv : ∀ q ∈ s.moves, q.pos = p → ∃ v, F.vars[moveVar F s q]? = some v ∧ Live v p ∧
      Live v (p - 1) ∧ (∀ o, c p = some o → o.out ≠ some (moveVar F s q)) := by
    intro q hq hqp
    obtain ⟨k, v, h1, h2, h3, _⟩ := C87_no_stray_moves_partial hF hno h hq
    rw [moveVar_eq h3]
    rw [hqp] at h2
    have hnd : ∀ o, c p = some o → o.out ≠ some k := by
      intro o ho
      have := (hcalm q hq o (by rw [hqp]; exact ho)).1
      rw [moveVar_eq h3] at this
      exact this
    refine ⟨v, h1, h2, ?_, hnd⟩
    apply Classical.byContradiction
    intro hn
    obtain ⟨o, ho, hd⟩ := hc.flow p hp hpb k v h1 h2 hn
    exact hnd o ho hd
  obtain ⟨l, hl⟩ : ∃ l, movePlaces F s p s.moves = some l := by
    apply movePlaces_some
    intro q hq hqp
    obtain ⟨v, h1, h2, h3, _⟩ := hmv q hq hqp
    obtain ⟨g, hg, _⟩ := place_fit hF hno h hc h1 h2
    obtain ⟨g', hg', _⟩ := place_fit hF hno h hc h1 h3
    rw [C87_reads_partial hF hno h h1 h3, hg, hg']
    exact ⟨rfl, rfl⟩
  obtain ⟨ml1, ml2⟩ := movePlaces_mem hl
  -- what the moves write
  have wr : ∀ x ∈ l.map (fun x => (m1.read x.1, x.2)), ∃ k v, F.vars[k]? = some v ∧ Live v p ∧
      (∀ o, c p = some o → o.out ≠ some k) ∧
      place F s k p false = some x.2 ∧ x.1 = env k ∧ Fit x.1 x.2 := by
    intro x hx
    obtain ⟨y, hy, rfl⟩ := List.mem_map.1 hx
    obtain ⟨q, hq, hqp, q1, q2⟩ := ml1 y hy
    obtain ⟨v, h1, h2, h3, h4⟩ := hmv q hq hqp
    obtain ⟨hlen, g, hg, hr⟩ := hh _ v h1 h3
    have hg1 := q1
    rw [C87_reads_partial hF hno h h1 h3, hg] at q1
    cases q1
    have hre : m1.read y.1 = env (moveVar F s q) := by
      rw [← hr]
      apply keep
      intro o ho
      obtain ⟨_, w⟩ := hcalm q hq o (by rw [hqp]; exact ho)
      rw [hqp] at w
      obtain ⟨w1, w2⟩ := w _ hg1
      exact ⟨w1, fun d h' hd hp' => apart_symm (w2 d h' hd hp')⟩
    obtain ⟨g', hg', hfit⟩ := place_fit hF hno h hc h1 h2
    rw [q2] at hg'
    cases hg'
    exact ⟨_, v, h1, h2, h4, q2, hre, by rw [hre]; exact hfit _ hlen⟩
  refine ⟨doMoves m1 l, by rw [dstStep, e1]; simp only [hl], ?_⟩
  intro k v hk hlive
  by_cases hdef : ∃ o, c p = some o ∧ o.out = some k
  · -- defined here
    obtain ⟨o, ho, hd⟩ := hdef
    obtain ⟨v', g, hv', hg, hr, hlen⟩ := out o k ho hd
    rw [hk] at hv'
    cases hv'
    refine ⟨hlen, g, hg, ?_⟩
    apply fold_read
    · intro x hx
      obtain ⟨k', v', h1, h2, h3, h4, h5, h6⟩ := wr x hx
      refine ⟨h6, .inr ?_⟩
      have hne : k' ≠ k := by rintro rfl; exact h3 o ho hd
      obtain ⟨A, B, hA, hB, hAB⟩ := C87_homes_partial hF hno h h1 hk hne
        (hc.plain _ (List.mem_of_getElem? h1)).1 (hc.plain _ (List.mem_of_getElem? hk)).1 h2 hlive
      rw [h4] at hA; rw [hg] at hB
      cases hA; cases hB
      exact hAB
    · exact .inl hr
  · -- lives on
    have hnd : ∀ o, c p = some o → o.out ≠ some k := fun o ho e => hdef ⟨o, ho, e⟩
    have hlive' : Live v (p - 1) := by
      apply Classical.byContradiction
      intro hn
      exact hdef (hc.flow p hp hpb k v hk hlive hn)
    rw [same k hnd]
    obtain ⟨hlen, g0, hg0, hr0⟩ := hh k v hk hlive'
    obtain ⟨g, hg, hfit⟩ := place_fit hF hno h hc hk hlive
    refine ⟨hlen, g, hg, ?_⟩
    apply fold_read
    · intro x hx
      obtain ⟨k', v', h1, h2, h3, h4, h5, h6⟩ := wr x hx
      refine ⟨h6, ?_⟩
      by_cases hne : k' = k
      · subst hne
        rw [hg] at h4
        cases h4
        exact .inl ⟨h5, rfl⟩
      · obtain ⟨A, B, hA, hB, hAB⟩ := C87_homes_partial hF hno h h1 hk hne
          (hc.plain _ (List.mem_of_getElem? h1)).1 (hc.plain _ (List.mem_of_getElem? hk)).1 h2 hlive
        rw [h4] at hA; rw [hg] at hB
        cases hA; cases hB
        exact .inr hAB
    · by_cases hgg : g0 = g
      · left
        subst hgg
        rw [← hr0]
        apply keep
        intro o ho
        constructor
        · intro r hr e
          rw [e] at hg
          exact (C87_registers_partial hF hno h hk (hc.plain _ (List.mem_of_getElem? hk)).1 hlive hg).2.2.2
            (hc.clob p hp hpb o ho r hr)
        · intro d h' hd hp'
          obtain ⟨v', hv', hl', _⟩ := hc.defs p hp hpb o ho d hd
          have hne : d ≠ k := by rintro rfl; exact hnd o ho hd
          obtain ⟨A, B, hA, hB, hAB⟩ := C87_homes_partial hF hno h hv' hk hne
            (hc.plain _ (List.mem_of_getElem? hv')).1 (hc.plain _ (List.mem_of_getElem? hk)).1 hl' hlive
          rw [hp'] at hA; rw [hg] at hB
          cases hA; cases hB
          exact hAB
      · right
        obtain ⟨q, hq, hqp, hq3, _⟩ := C87_moves_partial hF hno h hk hlive' hlive
          (by rw [hg0, hg]; intro e; exact hgg (Option.some.inj e))
        have hmvq := moveVar_eq hq3
        obtain ⟨y, hy, y1, y2⟩ := ml2 q hq hqp
        obtain ⟨k', v', h1, h2, h3, h4, h5, h6⟩ := wr _ (List.mem_map.2 ⟨y, hy, rfl⟩)
        rw [hmvq] at y1 y2
        rw [hg] at y2
        cases y2
        -- the value written is the one read at the old place
        have hg1 := y1
        rw [C87_reads_partial hF hno h hk hlive', hg0] at y1
        cases y1
        have : m1.read y.1 = env k := by
          rw [← hr0]
          apply keep
          intro o ho
          obtain ⟨_, w⟩ := hcalm q hq o (by rw [hqp]; exact ho)
          rw [hqp, hmvq] at w
          obtain ⟨w1, w2⟩ := w _ hg1
          exact ⟨w1, fun d h' hd hp' => apart_symm (w2 d h' hd hp')⟩
        exact List.mem_map.2 ⟨y, hy, by rw [this]⟩

theorem run_ok (hF : F.Ok) (hno : NoHoist F) (h : run F fuel = some s) (hc : Fits F c a b)
    (hcalm : Calm F s c) (junk : Int → Nat → Val) : ∀ (n : Nat) {p : Int} {env : Nat → Val} {m : Mach},
    a ≤ p → p + n ≤ b → Holds F s p env m →
    ∃ m2, dstRun F s c junk p n m = some (m2, (srcRun c p n env).2) ∧
      Holds F s (p + n) (srcRun c p n env).1 m2
  | 0, p, env, m, _, _, hh => ⟨m, rfl, by simpa [srcRun] using hh⟩
  | n + 1, p, env, m, h1, h2, hh => by
    obtain ⟨m1, e1, h3⟩ := step_ok hF hno h hc hcalm (p := p + 1) (by omega) (by omega) junk
      (env := env) (m := m) (by rw [show p + 1 - 1 = p by omega]; exact hh)
    obtain ⟨m2, e2, h4⟩ := run_ok hF hno h hc hcalm junk n (by omega) (by omega) h3
    refine ⟨m2, by rw [dstRun, e1]; simp only [e2, srcRun], ?_⟩
    rw [show p + ((n + 1 : Nat) : Int) = p + 1 + n by omega]
    exact h4

end

end Nature.Alloc
