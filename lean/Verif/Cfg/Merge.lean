/-
Merging blocks.
-/
import Verif.Cfg.Prune
namespace Nature.Cfg

/-- The new name of a predecessor. -/
def ren (b next p : Label) : Label := if p = next then b else p

/-- What becomes of a block when `next` is merged into `b`. -/
def mergedBlock (b next x : Block) : Block :=
  ⟨x.name, if x.name = b.name then joined b next else x.ops, x.preds.map (ren b.name next.name),
    if x.name = b.name then next.succs else x.succs⟩

theorem mergeInto_eq {t : Nat} {g : Graph} (hg : Good t g) {b next : Block} (hn : next ∈ g) :
    mergeInto g b next = (g.filter fun x => x.name ≠ next.name).map (mergedBlock b next) := by
  unfold mergeInto
  simp only []
  rw [foldl_change (f := fun x => { x with preds := x.preds.map fun p => if p = next.name then b.name else p }) (fun _ => rfl) _
    (hg.shape next hn).nsuccs]
  rw [change, List.map_map, List.filter_map]
  have hfe : g.filter ((fun x : Block => decide (x.name ≠ next.name)) ∘ ((fun x => if x.name ∈ next.succs then
      { x with preds := x.preds.map fun p => if p = next.name then b.name else p } else x) ∘
      fun x => if x.name = b.name then { x with ops := joined b next, succs := next.succs } else x)) =
      g.filter fun x => x.name ≠ next.name := by
    refine List.filter_congr fun x _ => ?_
    simp only [Function.comp]
    congr 2
    split <;> split <;> rfl
  rw [hfe]
  refine List.map_congr_left fun x hx => ?_
  have hx := (List.mem_filter.mp hx).1
  simp only [Function.comp]
  have hp : x.name ∉ next.succs → x.preds.map (ren b.name next.name) = x.preds := by
    intro h
    refine (List.map_congr_left (g := id) fun p hp => ?_).trans (List.map_id _)
    unfold ren
    split
    · next e =>
      obtain ⟨y, hy, e', h'⟩ := (hg.edge x hx p).mp hp
      rw [same_name hg.nodup hy hn (e'.trans e)] at h'
      exact absurd h' h
    · rfl
  unfold mergedBlock
  by_cases h1 : x.name = b.name
  · simp only [h1, if_true]
    split
    · rfl
    · next h => rw [hp (h1 ▸ h)]
  · simp only [h1, if_false]
    split
    · rfl
    · next h => rw [hp h]

theorem joined_eq {b next : Block} {p : List Ins} {l : Nat} (h : b.ops = p ++ [.bal l]) :
    joined b next = p ++ next.ops.filter fun i => !i.isLabel := by
  unfold joined
  rw [h]
  simp

theorem isLabel_label (l : Nat) : (Ins.label l).isLabel = true := rfl
theorem isLabel_bal (l : Nat) : (Ins.bal l).isLabel = false := rfl
theorem isLabel_br (c l : Nat) : (Ins.br c l).isLabel = false := rfl

theorem filter_mid {mid : List Ins} (h : ∀ i ∈ mid, ∃ c, i = Ins.op c) :
    (mid.filter fun i => !i.isLabel) = mid := by
  rw [List.filter_eq_self]
  intro i hi
  obtain ⟨c, rfl⟩ := h i hi
  rfl

/-- The merged block has the right form. -/
theorem joined_shape {b next : Block} (hb : Shape b) (hx : Shape next) (hs : b.succs = [next.name]) (ps : List Nat) :
    Shape ⟨b.name, joined b next, ps, next.succs⟩ ∧ ∃ mid rest, b.ops = .label b.name :: (mid ++ [.bal next.name]) ∧
      next.ops = .label next.name :: rest ∧ joined b next = .label b.name :: (mid ++ rest) ∧ ∀ i ∈ mid, ∃ c, i = .op c := by
  cases hb with
  | stop h => simp at hs
  | @two n l l' c mid ps ss h a e => rcases e with rfl | rfl <;> simp at hs
  | @one n l mid ps' h =>
    simp only [List.cons.injEq, and_true] at hs
    subst hs
    have key := joined_eq (next := next) (b := ⟨n, .label n :: (mid ++ [.bal next.name]), ps', [next.name]⟩) (p := .label n :: mid) rfl
    rw [key]
    have happ : ∀ m : List Ins, (∀ i ∈ m, ∃ c, i = Ins.op c) → ∀ i ∈ mid ++ m, ∃ c, i = Ins.op c := by
      intro m hm i hi
      rcases List.mem_append.mp hi with hi | hi
      · exact h i hi
      · exact hm i hi
    cases hx with
    | @stop n2 mid2 ps2 h2 =>
      simp only [List.filter_cons, filter_mid h2, isLabel_label, isLabel_bal, isLabel_br, Bool.not_true, Bool.not_false, Bool.false_eq_true, if_false]
      exact ⟨.stop (happ _ h2), mid, mid2, rfl, rfl, rfl, h⟩
    | @one n2 l2 mid2 ps2 h2 =>
      simp only [List.filter_cons, List.filter_append, filter_mid h2, isLabel_label, isLabel_bal, isLabel_br, Bool.not_true, Bool.not_false, Bool.false_eq_true, if_false, if_true, List.filter_nil]
      refine ⟨?_, mid, mid2 ++ [.bal l2], rfl, rfl, rfl, h⟩
      have := Shape.one (n := n) (l := l2) (ps := ps) (happ _ h2)
      simpa using this
    | @two n2 l2 l2' c2 mid2 ps2 ss2 h2 a2 e2 =>
      simp only [List.filter_cons, List.filter_append, filter_mid h2, isLabel_label, isLabel_bal, isLabel_br, Bool.not_true, Bool.not_false, Bool.false_eq_true, if_false, if_true, List.filter_nil]
      refine ⟨?_, mid, mid2 ++ [.br c2 l2', .bal l2], rfl, rfl, rfl, h⟩
      have := Shape.two (n := n) (l := l2) (c := c2) (ps := ps) (happ _ h2) a2 e2
      simpa using this

/-- Operations before. -/
theorem rep_append {J J' : Jumps} {T : Nat → Nat → Prop} {r r' : List Ins} (h : Rep J J' T r r') : ∀ (mid : List Ins),
    (∀ i ∈ mid, ∃ c, i = Ins.op c) → Rep J J' T (mid ++ r) (mid ++ r') := by
  intro mid
  induction mid with
  | nil => intro _; exact h
  | cons i mid ih =>
    intro hm
    rw [List.forall_mem_cons] at hm
    obtain ⟨⟨c, rfl⟩, hm⟩ := hm
    exact .op (ih hm)

/-- Merging two blocks. -/
theorem mergeInto_good {t : Nat} {g : Graph} (hg : Good t g) (hr : ∀ b ∈ g, Reach g b.name) {b next : Block} (hb : b ∈ g) (hn : next ∈ g)
    (hs : b.succs = [next.name]) (hp : next.preds.length = 1) (hne : g.head?.map (·.name) ≠ some next.name) :
    Good t (mergeInto g b next) ∧ (∀ x ∈ mergeInto g b next, Reach (mergeInto g b next) x.name) ∧
    Same (graphJumps g) (entryOps g) (graphJumps (mergeInto g b next)) (entryOps (mergeInto g b next)) ∧
    (mergeInto g b next).head?.map (·.name) = g.head?.map (·.name) := by
  rw [mergeInto_eq hg hn]
  have hbp : b.name ∈ next.preds := (hg.edge next hn b.name).mpr ⟨b, hb, rfl, by rw [hs]; simp⟩
  have honly : ∀ x ∈ g, next.name ∈ x.succs → x = b := by
    intro x hx h
    have hx' : x.name ∈ next.preds := (hg.edge next hn x.name).mpr ⟨x, hx, rfl, h⟩
    obtain ⟨a, ha⟩ := List.length_eq_one_iff.mp hp
    rw [ha, List.mem_singleton] at hx' hbp
    exact same_name hg.nodup hx hb (hx'.trans hbp.symm)
  have hbn : b.name ≠ next.name := by
    -- next is reached, and not as the first block: through itself only otherwise
    intro e
    have e := same_name hg.nodup hb hn e
    subst e
    have : ∀ l, Reach g l → l ≠ b.name := by
      intro l hl
      induction hl with
      | @entry x r h => subst h; intro h; simp [h] at hne
      | @succ x s hx _ hs' ih =>
        rintro rfl
        exact ih (congrArg Block.name (honly x hx hs'))
    exact this _ (hr b hb) rfl
  have hself : next.name ∉ next.succs := fun h => hbn (congrArg Block.name (honly next hn h)).symm
  have hmem : ∀ x', x' ∈ ((g.filter fun x => x.name ≠ next.name).map (mergedBlock b next)) ↔
      ∃ x ∈ g, x.name ≠ next.name ∧ x' = mergedBlock b next x := by
    intro x'
    simp only [List.mem_map, List.mem_filter, decide_eq_true_eq]
    exact ⟨fun ⟨x, ⟨a, b⟩, c⟩ => ⟨x, a, b, c.symm⟩, fun ⟨x, a, b, c⟩ => ⟨x, ⟨a, b⟩, c.symm⟩⟩
  obtain ⟨hsh, mid, rest, o1, o2, o3, o4⟩ := joined_shape (hg.shape b hb) (hg.shape next hn) hs (b.preds.map (ren b.name next.name))
  have hmb : mergedBlock b next b = ⟨b.name, joined b next, b.preds.map (ren b.name next.name), next.succs⟩ := by simp [mergedBlock]
  have hmo : ∀ x ∈ g, x ≠ b → mergedBlock b next x = { x with preds := x.preds.map (ren b.name next.name) } := by
    intro x hx h
    have : x.name ≠ b.name := fun e => h (same_name hg.nodup hx hb e)
    simp [mergedBlock, this]
  generalize hG : ((g.filter fun x => x.name ≠ next.name).map (mergedBlock b next)) = g' at hmem
  -- the edges of the new graph
  have hedge : ∀ l p : Nat, l ≠ next.name → ((∃ y' ∈ g', y'.name = p ∧ l ∈ y'.succs) ↔
      (∃ q, ren b.name next.name q = p ∧ ∃ y ∈ g, y.name = q ∧ l ∈ y.succs)) := by
    intro l p hl
    constructor
    · rintro ⟨y', hy', rfl, h⟩
      obtain ⟨y, hy, hyn, rfl⟩ := (hmem _).mp hy'
      by_cases e : y = b
      · subst e
        rw [hmb] at h ⊢
        exact ⟨next.name, by simp [ren], next, hn, rfl, h⟩
      · rw [hmo y hy e] at h ⊢
        exact ⟨y.name, by simp [ren, hyn], y, hy, rfl, h⟩
    · rintro ⟨q, rfl, y, hy, rfl, h⟩
      by_cases e : y = next
      · subst e
        refine ⟨mergedBlock b y b, (hmem _).mpr ⟨b, hb, hbn, rfl⟩, ?_, ?_⟩
        · simp [mergedBlock, ren]
        · rw [hmb]; exact h
      · have e' : y.name ≠ next.name := fun e' => e (same_name hg.nodup hy hn e')
        have e2 : y ≠ b := by
          rintro rfl
          rw [hs, List.mem_singleton] at h
          exact hl h
        refine ⟨mergedBlock b next y, (hmem _).mpr ⟨y, hy, e', rfl⟩, ?_, ?_⟩
        · simp [mergedBlock, ren, e']
        · rw [hmo y hy e2]; exact h
  have hgood : Good t g' := by
    refine ⟨?_, ?_, ?_, ?_, ?_, ?_⟩
    · rw [← hG, List.map_map]
      exact hg.nodup.sublist (List.filter_sublist.map _)
    · intro x' hx'
      obtain ⟨x, hx, _, rfl⟩ := (hmem _).mp hx'
      by_cases e : x = b
      · subst e; rw [hmb]; exact hsh
      · rw [hmo x hx e]; exact (hg.shape x hx).congr _
    · intro x' hx' s hs'
      obtain ⟨x, hx, _, rfl⟩ := (hmem _).mp hx'
      have hex : ∀ y ∈ g, y ≠ b → s ∈ y.succs → ∃ z ∈ g', z.name = s := by
        intro y hy hyb h
        obtain ⟨z, hz, rfl⟩ := hg.closed y hy s h
        have : z.name ≠ next.name := by
          intro e
          rw [e] at h
          exact hyb (honly y hy h)
        exact ⟨_, (hmem _).mpr ⟨z, hz, this, rfl⟩, rfl⟩
      by_cases e : x = b
      · subst e
        rw [hmb] at hs'
        exact hex next hn (fun e => hbn (congrArg Block.name e).symm) hs'
      · rw [hmo x hx e] at hs'
        exact hex x hx e hs'
    · intro x' hx' p
      obtain ⟨x, hx, hxn, rfl⟩ := (hmem _).mp hx'
      rw [show (mergedBlock b next x).name = x.name from rfl, hedge x.name p hxn]
      show p ∈ x.preds.map (ren b.name next.name) ↔ _
      rw [List.mem_map]
      constructor
      · rintro ⟨q, hq, rfl⟩
        exact ⟨q, rfl, (hg.edge x hx q).mp hq⟩
      · rintro ⟨q, rfl, hq⟩
        exact ⟨q, (hg.edge x hx q).mpr hq, rfl⟩
    · intro x' hx'
      obtain ⟨x, hx, hxn, rfl⟩ := (hmem _).mp hx'
      have hnb : b.name ∉ x.preds := by
        intro h
        obtain ⟨y, hy, e, h⟩ := (hg.edge x hx b.name).mp h
        rw [same_name hg.nodup hy hb e, hs, List.mem_singleton] at h
        exact hxn h
      show (x.preds.map (ren b.name next.name)).Nodup
      rw [List.Nodup, List.pairwise_map]
      refine (List.Pairwise.imp_of_mem ?_ (hg.npreds x hx))
      intro p q hp' hq' hpq
      unfold ren
      have h1 : p ≠ b.name := fun e => hnb (e ▸ hp')
      have h2 : q ≠ b.name := fun e => hnb (e ▸ hq')
      split <;> split
      · next a b => exact absurd (a.trans b.symm) hpq
      · exact Ne.symm h2
      · exact h1
      · exact hpq
    · intro x' hx'
      obtain ⟨x, hx, _, rfl⟩ := (hmem _).mp hx'
      exact hg.fresh x hx
  obtain ⟨e, r, rfl⟩ : ∃ e r, g = e :: r := by cases g with | nil => simp at hb | cons e r => exact ⟨e, r, rfl⟩
  have hen : e.name ≠ next.name := by simpa using hne
  obtain ⟨r', hr'⟩ : ∃ r', g' = mergedBlock b next e :: r' := by
    rw [← hG, List.filter_cons]
    simp only [hen, ne_eq, not_false_eq_true, decide_true, if_true, List.map_cons]
    exact ⟨_, rfl⟩
  refine ⟨hgood, ?_, ?_, ?_⟩
  · have key : ∀ l, Reach (e :: r) l → Reach g' (ren b.name next.name l) := by
      intro l hl
      induction hl with
      | entry h =>
        obtain ⟨rfl, _⟩ := List.cons.inj h
        have h0 := Reach.entry hr'
        rw [ren, if_neg hen]
        exact h0
      | @succ x s hx hx' hs' ih =>
        by_cases h : s = next.name
        · subst h
          have := honly x hx hs'
          subst this
          rw [ren, if_neg hbn] at ih
          rw [ren, if_pos rfl]
          exact ih
        · rw [show ren b.name next.name s = s by rw [ren, if_neg h]]
          obtain ⟨y', hy', e1, e2⟩ := (hedge s (ren b.name next.name x.name) h).mpr ⟨x.name, rfl, x, hx, rfl, hs'⟩
          rw [← e1] at ih
          exact .succ hy' ih e2
    intro x' hx'
    obtain ⟨x, hx, hxn, rfl⟩ := (hmem _).mp hx'
    have := key _ (hr x hx)
    rw [ren, if_neg hxn] at this
    exact this
  · have hself' : ∀ y ∈ e :: r, y ≠ b → ∀ s ∈ y.succs, s = s ∧ s ≠ next.name ∧ ∃ x ∈ e :: r, x.name = s := by
      intro y hy hyb s h
      exact ⟨rfl, fun e => hyb (honly y hy (e ▸ h)), hg.closed y hy s h⟩
    have hrep : ∀ x ∈ e :: r, x.name ≠ next.name → Rep (graphJumps (e :: r)) (graphJumps g')
        (fun a b => a = b ∧ a ≠ next.name ∧ ∃ x ∈ e :: r, x.name = a) x.ops (mergedBlock b next x).ops := by
      intro x hx hxn
      by_cases h : x = b
      · subst h
        rw [hmb]
        show Rep _ _ _ x.ops (joined x next)
        rw [o1, o3]
        refine .labelL (.labelR (rep_append ?_ _ o4))
        refine .balL (jumps_mem hg.nodup hn) ?_
        rw [o2]
        refine .labelL (rep_refl ?_)
        have := (hg.shape next hn).jumps (hself' next hn fun e => hbn (congrArg Block.name e).symm)
        rw [o2, List.forall_mem_cons] at this
        exact this.2
      · rw [hmo x hx h]
        exact rep_refl ((hg.shape x hx).jumps (hself' x hx h))
    have hT : Table (graphJumps (e :: r)) (graphJumps g') (fun a b => a = b ∧ a ≠ next.name ∧ ∃ x ∈ e :: r, x.name = a) := by
      rintro l _ ⟨rfl, hl, x, hx, rfl⟩
      refine ⟨x.ops, (mergedBlock b next x).ops, jumps_mem hg.nodup hx, ?_, hrep x hx hl⟩
      have h0 := jumps_mem hgood.nodup ((hmem (mergedBlock b next x)).mpr ⟨x, hx, hl, rfl⟩)
      exact h0
    have := same_of hT (hrep e (by simp) hen)
    rw [hr'] at this ⊢
    exact this
  · rw [hr']; rfl

theorem mergeOne_some {keep : Nat → Bool} {g : Graph} : ∀ {l : List Block} {g' : Graph}, mergeOne keep g l = some g' →
    ∃ pre b next r, l = pre ++ b :: next :: r ∧ mergeable keep b next = true ∧ g' = mergeInto g b next := by
  intro l
  induction l with
  | nil => intro g' h; simp [mergeOne] at h
  | cons x l ih =>
    intro g' h
    cases l with
    | nil => simp [mergeOne] at h
    | cons y l =>
      rw [mergeOne] at h
      split at h
      · next hm => exact ⟨[], x, y, l, rfl, hm, (Option.some.inj h).symm⟩
      · obtain ⟨pre, b, next, r, e, h1, h2⟩ := ih h
        exact ⟨x :: pre, b, next, r, by rw [e]; rfl, h1, h2⟩

theorem merge_good {keep : Nat → Bool} {t : Nat} : ∀ (n : Nat) {g : Graph}, Good t g → (∀ b ∈ g, Reach g b.name) →
    Good t (mergeLoop keep n g) ∧ (∀ b ∈ mergeLoop keep n g, Reach (mergeLoop keep n g) b.name) ∧
    Same (graphJumps g) (entryOps g) (graphJumps (mergeLoop keep n g)) (entryOps (mergeLoop keep n g)) ∧
    (mergeLoop keep n g).head?.map (·.name) = g.head?.map (·.name) := by
  intro n
  induction n with
  | zero => intro g hg hr; exact ⟨hg, hr, fun _ _ _ _ => ⟨Iff.rfl, Iff.rfl⟩, rfl⟩
  | succ n ih =>
    intro g hg hr
    rw [mergeLoop]
    cases hm : mergeOne keep g g with
    | none => exact ⟨hg, hr, fun _ _ _ _ => ⟨Iff.rfl, Iff.rfl⟩, rfl⟩
    | some g' =>
      obtain ⟨pre, b, next, r, e, hm', rfl⟩ := mergeOne_some hm
      unfold mergeable at hm'
      simp only [Bool.and_eq_true, beq_iff_eq] at hm'
      have hnx : next ∈ g := by rw [e]; simp
      obtain ⟨a1, a2, a3, a4⟩ := mergeInto_good hg hr (b := b) (next := next) (by rw [e]; simp) hnx hm'.1.1 hm'.1.2 (by
        have hd := hg.nodup
        rw [e] at hd ⊢
        intro h
        cases pre with
        | nil =>
          simp only [List.nil_append, List.head?_cons, Option.map_some, Option.some.injEq] at h
          simp [h] at hd
        | cons x pre =>
          simp only [List.cons_append, List.head?_cons, Option.map_some, Option.some.injEq] at h
          simp [h] at hd)
      obtain ⟨b1, b2, b3, b4⟩ := ih a1 a2
      exact ⟨b1, b2, a3.trans b3, b4.trans a4⟩

end Nature.Cfg
