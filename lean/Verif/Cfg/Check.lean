/-
Model of the two checks that are made on the graph: that a function returns (`return_check`) and that a match has a result
(`ret_check`), /repo/src/cfg.c:126-235, and what they find.
-/
import Verif.Cfg.SplitAll
namespace Nature.Cfg

/-! ### return_check -/

/-- One successor after another (cfg.c:232-234, 182-192); `none`: out of fuel.  An error ends the compilation
(error.c:49-51). -/
def checkAll (f : Label → List Label → Option (Bool × List Label)) : List Label → List Label → Option (Bool × List Label)
  | [], seen => some (false, seen)
  | s :: r, seen =>
    match f s seen with
    | none => none
    | some (true, seen) => some (true, seen)
    | some (false, seen) => checkAll f r seen

/-- cfg.c:202-235 `return_check` for a function that returns something: `rets c` tells which operations are returns, `fin` is the
label at the end.  The result tells whether an error is reported, and which blocks have been looked at. -/
def returnCheck (g : Graph) (rets : Nat → Bool) (fin : Label) : Nat → Label → List Label → Option (Bool × List Label)
  | 0, _, _ => none
  | n + 1, b, seen =>
    if b ∈ seen then some (false, seen)
    else if (opsOf g b).any fun i => match i with | .op c => rets c | _ => false then some (false, seen ++ [b])
    else if b = fin then some (true, seen ++ [b])
    else checkAll (returnCheck g rets fin n) (succsOf g b) (seen ++ [b])

/-- A block does not return. -/
def NoReturn (rets : Nat → Bool) (b : Block) : Prop := ∀ c, .op c ∈ b.ops → rets c = false

/-- A way from block `a` to block `b` on which nothing returns, the last block included. -/
inductive NoReturnPath (g : Graph) (rets : Nat → Bool) : Label → Label → Prop
  | here {b : Block} : b ∈ g → NoReturn rets b → NoReturnPath g rets b.name b.name
  | step {a : Block} {s b : Label} : a ∈ g → NoReturn rets a → s ∈ a.succs → NoReturnPath g rets s b → NoReturnPath g rets a.name b

theorem any_ret {rets : Nat → Bool} {b : Block} :
    (b.ops.any fun i => match i with | .op c => rets c | _ => false) = false ↔ NoReturn rets b := by
  rw [List.any_eq_false]
  constructor
  · intro h c hc
    have := h _ hc
    simpa using this
  · intro h i hi
    cases i with
    | op c => simp [h c hi]
    | _ => simp

/-- What is known after a search without an error. -/
structure Searched (g : Graph) (rets : Nat → Bool) (fin : Label) (seen seen' : List Label) : Prop where
  sub : ∀ x ∈ seen, x ∈ seen'
  done : ∀ b ∈ g, b.name ∈ seen' → b.name ∉ seen → NoReturn rets b → b.name ≠ fin ∧ ∀ s ∈ b.succs, s ∈ seen'

theorem returnCheck_spec {t : Nat} {g : Graph} (hg : Good t g) (rets : Nat → Bool) (fin : Nat) : ∀ (n : Nat) (b : Block), b ∈ g →
    ∀ seen : List Nat, seen.Nodup → (∀ x ∈ seen, x ∈ g.map (·.name)) → g.length < n + seen.length →
    ∃ e seen', returnCheck g rets fin n b.name seen = some (e, seen') ∧ seen'.Nodup ∧ (∀ x ∈ seen', x ∈ g.map (·.name)) ∧
      (∀ x ∈ seen, x ∈ seen') ∧ (e = true → NoReturnPath g rets b.name fin) ∧
      (e = false → b.name ∈ seen' ∧ Searched g rets fin seen seen') := by
  intro n
  induction n with
  | zero =>
    intro b hb seen hn hsub hlen
    exfalso
    have := nodup_length hn hsub
    rw [List.length_map] at this
    omega
  | succ n ih =>
    intro b hb seen hn hsub hlen
    rw [returnCheck, opsOf_mem hg.nodup hb, succsOf_mem hg.nodup hb]
    by_cases h1 : b.name ∈ seen
    · rw [if_pos h1]
      exact ⟨false, seen, rfl, hn, hsub, fun _ h => h, by simp, fun _ => ⟨h1, ⟨fun _ h => h, fun _ _ h h' => absurd h h'⟩⟩⟩
    · rw [if_neg h1]
      have hn1 : (seen ++ [b.name]).Nodup := by
        rw [List.nodup_append]
        refine ⟨hn, by simp, ?_⟩
        intro x hx y hy e
        rw [List.mem_singleton] at hy
        exact h1 (hy ▸ e ▸ hx)
      have hsub1 : ∀ x ∈ seen ++ [b.name], x ∈ g.map (·.name) := by
        intro x hx
        rw [List.mem_append, List.mem_singleton] at hx
        rcases hx with hx | rfl
        · exact hsub x hx
        · exact List.mem_map_of_mem hb
      have hother : ∀ c ∈ g, c.name ∈ seen ++ [b.name] → c.name ∉ seen → c = b := by
        intro c hc h h'
        rw [List.mem_append, List.mem_singleton] at h
        exact same_name hg.nodup hc hb (h.resolve_left h')
      by_cases h2 : (b.ops.any fun i => match i with | .op c => rets c | _ => false) = true
      · rw [if_pos h2]
        refine ⟨false, _, rfl, hn1, hsub1, fun x hx => by simp [hx], by simp, fun _ => ⟨by simp, ⟨fun x hx => by simp [hx], ?_⟩⟩⟩
        intro c hc h h' hr
        rw [hother c hc h h'] at hr
        rw [any_ret.mpr hr] at h2
        cases h2
      · rw [if_neg h2]
        have h2 : NoReturn rets b := any_ret.mp (by simpa using h2)
        by_cases h3 : b.name = fin
        · rw [if_pos h3]
          refine ⟨true, _, rfl, hn1, hsub1, fun x hx => by simp [hx], fun _ => ?_, by simp⟩
          have := NoReturnPath.here (g := g) hb h2
          rw [h3] at this ⊢
          exact this
        · rw [if_neg h3]
          -- the successors are looked at with a longer list
          have gen : ∀ (l : List Nat), (∀ s ∈ l, s ∈ b.succs) → ∀ sn : List Nat, sn.Nodup → (∀ x ∈ sn, x ∈ g.map (·.name)) →
              g.length < n + sn.length → ∃ e seen', checkAll (returnCheck g rets fin n) l sn = some (e, seen') ∧ seen'.Nodup ∧
              (∀ x ∈ seen', x ∈ g.map (·.name)) ∧ (∀ x ∈ sn, x ∈ seen') ∧ (e = true → ∃ s ∈ l, NoReturnPath g rets s fin) ∧
              (e = false → (∀ s ∈ l, s ∈ seen') ∧ Searched g rets fin sn seen') := by
            intro l
            induction l with
            | nil =>
              intro _ sn hn hs _
              exact ⟨false, sn, rfl, hn, hs, fun _ h => h, by simp, fun _ => ⟨by simp, ⟨fun _ h => h, fun _ _ h h' => absurd h h'⟩⟩⟩
            | cons s l ihl =>
              intro hl sn hsn hss hlen'
              rw [List.forall_mem_cons] at hl
              obtain ⟨bs, hbs, rfl⟩ := hg.closed b hb s hl.1
              obtain ⟨e, seen1, a1, a2, a3, a4, a5, a6⟩ := ih bs hbs sn hsn hss hlen'
              rw [checkAll, a1]
              cases e with
              | true => exact ⟨true, seen1, rfl, a2, a3, a4, fun _ => ⟨_, by simp, a5 rfl⟩, by simp⟩
              | false =>
                have hle := nodup_length hsn a4
                obtain ⟨e', seen2, k1, k2, k3, k4, k5, k6⟩ := ihl hl.2 seen1 a2 a3 (by omega)
                refine ⟨e', seen2, k1, k2, k3, fun x hx => k4 x (a4 x hx), fun he => ?_, fun he => ?_⟩
                · obtain ⟨x, hx, h⟩ := k5 he
                  exact ⟨x, by simp [hx], h⟩
                · obtain ⟨m1, m2⟩ := k6 he
                  obtain ⟨n1, n2⟩ := a6 rfl
                  refine ⟨?_, ⟨fun x hx => k4 x (a4 x hx), fun c hc hs hns hr => ?_⟩⟩
                  · rw [List.forall_mem_cons]
                    exact ⟨k4 _ n1, m1⟩
                  · by_cases h : c.name ∈ seen1
                    · obtain ⟨u, v⟩ := n2.done c hc h hns hr
                      exact ⟨u, fun s hs => k4 s (v s hs)⟩
                    · exact m2.done c hc hs h hr
          obtain ⟨e, seen', a1, a2, a3, a4, a5, a6⟩ := gen b.succs (fun _ h => h) (seen ++ [b.name]) hn1 hsub1
            (by rw [List.length_append]; simp only [List.length_cons, List.length_nil]; omega)
          refine ⟨e, seen', a1, a2, a3, fun x hx => a4 x (by simp [hx]), fun he => ?_, fun he => ?_⟩
          · obtain ⟨s, hs, hp⟩ := a5 he
            exact .step hb h2 hs hp
          · obtain ⟨m1, m2⟩ := a6 he
            refine ⟨a4 _ (by simp), ⟨fun x hx => a4 x (by simp [hx]), fun c hc hs hns hr => ?_⟩⟩
            by_cases h : c.name ∈ seen ++ [b.name]
            · rw [hother c hc h hns]
              exact ⟨h3, m1⟩
            · exact m2.done c hc hs h hr

/-- The check finds out whether there is a way without a return. -/
theorem returnCheck_iff {t : Nat} {g : Graph} (hg : Good t g) {e : Block} {r : Graph} (he : g = e :: r) (rets : Nat → Bool) (fin : Nat) :
    ∃ err seen, returnCheck g rets fin (g.length + 1) e.name [] = some (err, seen) ∧
      (err = true ↔ NoReturnPath g rets e.name fin) := by
  obtain ⟨err, seen, h1, _, _, _, h5, h6⟩ := returnCheck_spec hg rets fin (g.length + 1) e (by rw [he]; simp) [] (by simp) (by simp)
    (by simp)
  refine ⟨err, seen, h1, h5, fun hp => ?_⟩
  cases err with
  | true => rfl
  | false =>
    exfalso
    obtain ⟨a, b⟩ := h6 rfl
    have : ∀ x y, NoReturnPath g rets x y → y = fin → x ∈ seen → False := by
      intro x y h
      induction h with
      | @here b' hb' hr =>
        intro hy hx
        exact (b.done b' hb' hx (by simp) hr).1 hy
      | @step a' s b' ha' hr hs _ ih =>
        intro hy hx
        exact ih hy ((b.done a' ha' hx (by simp) hr).2 s hs)
    exact this _ _ hp rfl a

/-! ### ret_check -/

/-- What the names of blocks and the operations mean for the second check. -/
structure Marks where
  /-- cfg.c:140-147: the block starts a match with a result; the label of its end. -/
  start : Label → Option Label
  /-- cfg.c:155-164: the operation gives the match that ends at this label its result. -/
  gives : Nat → Option Label
  /-- cfg.c:167: the operation is a return. -/
  rets : Nat → Bool

/-- cfg.c:139-171: the match whose result is waited for, after block `b`; `fin` is the one before. -/
def afterOps (M : Marks) : Option Label → List Ins → Option Label
  | none, _ => none
  | some e, [] => some e
  | some e, .op c :: r => if M.gives c = some e ∨ M.rets c then none else afterOps M (some e) r
  | some e, _ :: r => afterOps M (some e) r

def afterBlock (M : Marks) (g : Graph) (b : Label) (fin : Option Label) : Option Label :=
  afterOps M (match M.start b with | some e => some e | none => fin) (opsOf g b)

/-- cfg.c:182-192: the successors. -/
def retAll (f : Label → List Label → Option (Bool × List Label)) (fin : Option Label) : List Label → List Label →
    Option (Bool × List Label)
  | [], seen => some (false, seen)
  | s :: r, seen =>
    if s ∈ seen ∧ fin ≠ some s then retAll f fin r seen
    else
      match f s (if s ∈ seen then seen else seen ++ [s]) with
      | none => none
      | some (true, seen) => some (true, seen)
      | some (false, seen) => retAll f fin r seen

/-- cfg.c:134-193 `ret_check`. -/
def retCheck (M : Marks) (g : Graph) : Nat → Label → Option Label → List Label → Option (Bool × List Label)
  | 0, _, _, _ => none
  | n + 1, b, fin, seen =>
    if afterBlock M g b fin = some b then some (true, seen)
    else retAll (fun s seen => retCheck M g n s (afterBlock M g b fin) seen) (afterBlock M g b fin) (succsOf g b) seen

/-- A block gives no result to the match ending at `e` and does not return. -/
def NoResult (M : Marks) (e : Label) (b : Block) : Prop := ∀ c, .op c ∈ b.ops → M.gives c ≠ some e ∧ M.rets c = false

/-- A way from block `a` to `b` on which the match ending at `e` gets no result. -/
inductive NoResultPath (M : Marks) (g : Graph) (e : Label) : Label → Label → Prop
  | here {b : Block} : b ∈ g → NoResult M e b → NoResultPath M g e b.name b.name
  | snoc {a : Label} {p : Block} {s : Block} : NoResultPath M g e a p.name → p ∈ g → s.name ∈ p.succs → s ∈ g → NoResult M e s →
      NoResultPath M g e a s.name

theorem afterOps_some {M : Marks} {e : Nat} : ∀ {ops : List Ins} {fin : Option Nat}, afterOps M fin ops = some e →
    fin = some e ∧ ∀ c, .op c ∈ ops → M.gives c ≠ some e ∧ M.rets c = false := by
  intro ops
  induction ops with
  | nil =>
    intro fin h
    cases fin with
    | none => simp [afterOps] at h
    | some x => simp only [afterOps] at h; exact ⟨h, by simp⟩
  | cons i ops ih =>
    intro fin h
    cases fin with
    | none => simp [afterOps] at h
    | some x =>
      cases i with
      | op c =>
        rw [afterOps] at h
        split at h
        · cases h
        · next hc =>
          obtain ⟨h1, h2⟩ := ih h
          refine ⟨h1, fun c' hc' => ?_⟩
          obtain rfl := Option.some.inj h1
          rcases List.mem_cons.mp hc' with e' | hc'
          · obtain rfl := Ins.op.inj e'
            rw [not_or] at hc
            exact ⟨hc.1, by simpa using hc.2⟩
          · exact h2 c' hc'
      | label l =>
        rw [afterOps] at h
        · obtain ⟨h1, h2⟩ := ih h
          exact ⟨h1, fun c' hc' => h2 c' (by simpa using hc')⟩
        · simp
      | bal l =>
        rw [afterOps] at h
        · obtain ⟨h1, h2⟩ := ih h
          exact ⟨h1, fun c' hc' => h2 c' (by simpa using hc')⟩
        · simp
      | br c l =>
        rw [afterOps] at h
        · obtain ⟨h1, h2⟩ := ih h
          exact ⟨h1, fun c' hc' => h2 c' (by simpa using hc')⟩
        · simp

/-- An error is reported only for a match that lacks a result. -/
theorem retCheck_sound {t : Nat} {g : Graph} (hg : Good t g) (M : Marks) : ∀ (n : Nat) (b : Block), b ∈ g → ∀ (fin : Option Nat)
    (seen seen' : List Nat), (∀ e, fin = some e → ∃ (a : Nat) (p : Block), M.start a = some e ∧ NoResultPath M g e a p.name ∧ p ∈ g ∧ b.name ∈ p.succs) →
    retCheck M g n b.name fin seen = some (true, seen') → ∃ a e, M.start a = some e ∧ NoResultPath M g e a e := by
  intro n
  induction n with
  | zero => intro b _ fin seen seen' _ h; simp [retCheck] at h
  | succ n ih =>
    intro b hb fin seen seen' hw h
    have hafter : ∀ e, afterBlock M g b.name fin = some e → ∃ a, M.start a = some e ∧ NoResultPath M g e a b.name := by
      intro e he
      unfold afterBlock at he
      rw [opsOf_mem hg.nodup hb] at he
      obtain ⟨h1, h2⟩ := afterOps_some he
      cases hs : M.start b.name with
      | some x =>
        rw [hs] at h1
        obtain rfl := Option.some.inj h1
        exact ⟨b.name, hs, .here hb h2⟩
      | none =>
        rw [hs] at h1
        obtain ⟨a, p, k1, k2, k3, k4⟩ := hw e h1
        exact ⟨a, k1, .snoc k2 k3 k4 hb h2⟩
    rw [retCheck] at h
    split at h
    · next he =>
      obtain ⟨a, h1, h2⟩ := hafter _ he
      exact ⟨a, b.name, h1, h2⟩
    · rw [succsOf_mem hg.nodup hb] at h
      have gen : ∀ (l : List Nat), (∀ s ∈ l, s ∈ b.succs) → ∀ seen seen' : List Nat,
          retAll (fun s seen => retCheck M g n s (afterBlock M g b.name fin) seen) (afterBlock M g b.name fin) l seen = some (true, seen') →
          ∃ a e, M.start a = some e ∧ NoResultPath M g e a e := by
        intro l
        induction l with
        | nil => intro _ seen seen' h; simp [retAll] at h
        | cons s l ihl =>
          intro hl seen seen' h
          rw [List.forall_mem_cons] at hl
          rw [retAll] at h
          split at h
          · exact ihl hl.2 _ _ h
          · split at h
            · cases h
            · next hr =>
              obtain ⟨bs, hbs, rfl⟩ := hg.closed b hb s hl.1
              refine ih bs hbs _ _ _ ?_ hr
              intro e he
              obtain ⟨a, h1, h2⟩ := hafter e he
              exact ⟨a, b, h1, h2, hb, hl.1⟩
            · exact ihl hl.2 _ _ h
      exact gen _ (fun _ h => h) _ _ h

/-- A match that starts at block `a` and ends at label `e` can lack its result: there is a way from its start to its end and no
block on it before the end gives a result or returns. -/
def LacksResult (M : Marks) (g : Graph) (a e : Label) : Prop :=
  M.start a = some e ∧ ∃ p : Block, NoResultPath M g e a p.name ∧ p ∈ g ∧ e ∈ p.succs

theorem retCheck_lacks {t : Nat} {g : Graph} (hg : Good t g) (M : Marks) (hM : ∀ a e, M.start a = some e → a ≠ e) {b : Block}
    (hb : b ∈ g) {n : Nat} {seen' : List Nat} (h : retCheck M g n b.name none [] = some (true, seen')) :
    ∃ a e, LacksResult M g a e := by
  obtain ⟨a, e, h1, h2⟩ := retCheck_sound hg M n b hb none [] seen' (by simp) h
  refine ⟨a, e, h1, ?_⟩
  generalize he : e = x at h2
  cases h2 with
  | here hb' hr =>
    subst he
    exact absurd rfl (hM _ _ h1)
  | @snoc a p s hp hpg hs hsg hr => exact ⟨p, he ▸ hp, hpg, hs⟩

end Nature.Cfg
