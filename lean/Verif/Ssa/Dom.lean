/-
Walks and dominance; the dominator tables computed by ssa.c:28-158 are exactly dominance.
-/
import Verif.Ssa.Spec
namespace Nature.Ssa

/-! ### Walks -/

theorem walk_head {c : Cfg} {l : List Blk} {b : Blk} (h : Walk c l b) : ∃ l', l = b :: l' := by
  cases h with
  | entry => exact ⟨[], rfl⟩
  | step h hs => exact ⟨_, rfl⟩

theorem walk_split {c : Cfg} {i : Blk} {suf : List Blk} : ∀ {pre : List Blk} {b : Blk}, Walk c (pre ++ i :: suf) b →
    Walk c (i :: suf) i ∧ ∀ l', Walk c (i :: l') i → Walk c (pre ++ i :: l') b := by
  intro pre
  induction pre with
  | nil =>
    intro b h
    obtain ⟨l', e⟩ := walk_head h
    simp only [List.nil_append, List.cons.injEq] at e h
    obtain ⟨rfl, _⟩ := e
    exact ⟨h, fun l' h' => h'⟩
  | cons x pre ih =>
    intro b h
    have h' : ∃ p, Walk c (pre ++ i :: suf) p ∧ b ∈ c.succs p ∧ b = x := by
      generalize e : x :: pre ++ i :: suf = l at h
      cases h with
      | entry => cases pre <;> simp at e
      | step h hs =>
        simp only [List.cons_append, List.cons.injEq] at e
        obtain ⟨rfl, rfl⟩ := e
        exact ⟨_, h, hs, rfl⟩
    obtain ⟨p, hw, hs, rfl⟩ := h'
    obtain ⟨h1, h2⟩ := ih hw
    exact ⟨h1, fun l' hl => Walk.step (h2 l' hl) hs⟩

theorem walk_sub {c : Cfg} {l : List Blk} {b i : Blk} (h : Walk c l b) (hi : i ∈ l) :
    ∃ l', Walk c l' i ∧ l'.length ≤ l.length ∧ (∀ x ∈ l', x ∈ l) ∧ (i ≠ b → l'.length < l.length) := by
  obtain ⟨pre, suf, rfl⟩ := List.append_of_mem hi
  refine ⟨i :: suf, (walk_split h).1, by simp, fun x hx => List.mem_append_right _ hx, fun hne => ?_⟩
  cases pre with
  | nil =>
    obtain ⟨l', e⟩ := walk_head h
    simp at e
    exact absurd e.1 hne
  | cons y pre => simp only [List.length_cons, List.length_append]; omega

theorem walk_lt {c : Cfg} (w : Wf c) {l : List Blk} {b : Blk} (h : Walk c l b) : b < c.length := by
  cases h with
  | entry => exact w.nonempty
  | step h hs =>
    have hp := (w.edge _ _).mp hs
    rcases Nat.lt_or_ge b c.length with hlt | hge
    · exact hlt
    · simp [Cfg.preds, List.getElem?_eq_none hge] at hp

theorem walk_mem_lt {c : Cfg} (w : Wf c) {l : List Blk} {b x : Blk} (h : Walk c l b) (hx : x ∈ l) : x < c.length := by
  obtain ⟨l', h', _⟩ := walk_sub h hx
  exact walk_lt w h'

theorem zero_mem_walk {c : Cfg} {l : List Blk} {b : Blk} (h : Walk c l b) : 0 ∈ l := by
  induction h with
  | entry => simp
  | step h hs ih => exact List.mem_cons_of_mem _ ih

theorem preds_lt {c : Cfg} (w : Wf c) {p s : Blk} (h : p ∈ c.preds s) : p < c.length ∧ s < c.length ∧ s ≠ 0 := by
  refine ⟨?_, ?_, ?_⟩
  · have h := (w.edge p s).mpr h
    rcases Nat.lt_or_ge p c.length with hlt | hge
    · exact hlt
    · simp [Cfg.succs, List.getElem?_eq_none hge] at h
  · rcases Nat.lt_or_ge s c.length with hlt | hge
    · exact hlt
    · simp [Cfg.preds, List.getElem?_eq_none hge] at h
  · rintro rfl
    rw [w.entry] at h
    simp at h

/-! ### Dominance -/

theorem dom_refl {c : Cfg} (b : Blk) : Dominates c b b := by
  intro l h
  obtain ⟨l', rfl⟩ := walk_head h
  simp

theorem dom_trans {c : Cfg} {x y z : Blk} (h1 : Dominates c x y) (h2 : Dominates c y z) : Dominates c x z := by
  intro l h
  obtain ⟨l', h', _, hs, _⟩ := walk_sub h (h2 l h)
  exact hs x (h1 l' h')

theorem dom_antisymm {c : Cfg} {x y : Blk} (hr : ∃ l, Walk c l x) (h1 : Dominates c x y) (h2 : Dominates c y x) : x = y := by
  by_cases hne : x = y
  · exact hne
  exfalso
  obtain ⟨l, hl⟩ := hr
  have key : ∀ n, ∀ l, l.length ≤ n → ¬ Walk c l x := by
    intro n
    induction n with
    | zero =>
      intro l hl h
      obtain ⟨l', rfl⟩ := walk_head h
      simp at hl
    | succ n ih =>
      intro l hl h
      obtain ⟨l1, w1, _, _, s1⟩ := walk_sub h (h2 l h)
      obtain ⟨l2, w2, le2, _, _⟩ := walk_sub w1 (h1 l1 w1)
      exact ih l2 (by have := s1 (fun e => hne e.symm); omega) w2
  exact key _ l (Nat.le_refl _) hl

theorem dom_total {c : Cfg} {x y b : Blk} (hr : ∃ l, Walk c l b) (h1 : Dominates c x b) (h2 : Dominates c y b) :
    Dominates c x y ∨ Dominates c y x := by
  obtain ⟨l, hl⟩ := hr
  have key : ∀ (pre suf : List Blk), l = pre ++ suf → ¬ x ∈ pre → ¬ y ∈ pre → Dominates c x y ∨ Dominates c y x := by
    intro pre suf
    induction suf generalizing pre with
    | nil =>
      intro e hx hy
      simp only [List.append_nil] at e
      exact absurd (h1 l hl) (e ▸ hx)
    | cons z suf ih =>
      intro e hx hy
      by_cases hzx : z = x
      · subst hzx
        refine Or.inr fun l' hl' => ?_
        obtain ⟨t, rfl⟩ := walk_head hl'
        rcases List.mem_append.mp (h2 _ ((walk_split (e ▸ hl)).2 t hl')) with h | h
        · exact absurd h hy
        · exact h
      · by_cases hzy : z = y
        · subst hzy
          refine Or.inl fun l' hl' => ?_
          obtain ⟨t, rfl⟩ := walk_head hl'
          rcases List.mem_append.mp (h1 _ ((walk_split (e ▸ hl)).2 t hl')) with h | h
          · exact absurd h hx
          · exact h
        · refine ih (pre ++ [z]) (by simp [e]) ?_ ?_
          · simp only [List.mem_append, List.mem_singleton]
            rintro (h | h)
            · exact hx h
            · exact hzx h.symm
          · simp only [List.mem_append, List.mem_singleton]
            rintro (h | h)
            · exact hy h
            · exact hzy h.symm
  exact key [] l rfl (by simp) (by simp)

theorem dom_zero {c : Cfg} (b : Blk) : Dominates c 0 b := fun _ h => zero_mem_walk h

theorem dom_pred {c : Cfg} {x p s : Blk} (hs : s ∈ c.succs p) (h : Dominates c x s) (hne : x ≠ s) : Dominates c x p := by
  intro l hl
  rcases List.mem_cons.mp (h _ (Walk.step hl hs)) with e | e
  · exact absurd e hne
  · exact e

theorem dom_of_preds {c : Cfg} {x s : Blk} (h0 : s ≠ 0) (h : ∀ p, s ∈ c.succs p → Dominates c x p) : Dominates c x s := by
  intro l hl
  cases hl with
  | entry => exact absurd rfl h0
  | step hl hs => exact List.mem_cons_of_mem _ (h _ hs _ hl)

theorem dom_lt {c : Cfg} (w : Wf c) {x b : Blk} (hb : b < c.length) (h : Dominates c x b) : x < c.length := by
  obtain ⟨l, hl⟩ := w.reach b hb
  exact walk_mem_lt w hl (h l hl)

theorem dom_of_zero {c : Cfg} {x : Blk} (h : Dominates c x 0) : x = 0 := by
  simpa using h [0] Walk.entry

theorem immDom_unique {c : Cfg} (w : Wf c) {x y b : Blk} (hb : b < c.length) (h1 : ImmDom c x b) (h2 : ImmDom c y b) : x = y :=
  dom_antisymm (w.reach x (dom_lt w hb h1.2.1)) (h2.2.2 x h1.1 h1.2.1) (h1.2.2 y h2.1 h2.2.1)

theorem immDom_exists {c : Cfg} (w : Wf c) {b : Blk} (hb : b < c.length) (h0 : b ≠ 0) : ∃ i, ImmDom c i b := by
  obtain ⟨l, hl⟩ := w.reach b hb
  have key : ∀ (pre suf : List Blk), l = pre ++ suf → (∀ y ∈ pre, y ≠ b → ¬ Dominates c y b) → ∃ i, ImmDom c i b := by
    intro pre suf
    induction suf generalizing pre with
    | nil =>
      intro e hp
      simp only [List.append_nil] at e
      exact absurd (dom_zero b) (hp 0 (e ▸ zero_mem_walk hl) fun e => h0 e.symm)
    | cons z suf ih =>
      intro e hp
      by_cases hz : z ≠ b ∧ Dominates c z b
      · refine ⟨z, hz.1, hz.2, fun y hy hd l' hl' => ?_⟩
        obtain ⟨t, rfl⟩ := walk_head hl'
        rcases List.mem_append.mp (hd _ ((walk_split (e ▸ hl)).2 t hl')) with h | h
        · exact absurd hd (hp y h hy)
        · exact h
      · refine ih (pre ++ [z]) (by simp [e]) ?_
        intro y hy hne
        rcases List.mem_append.mp hy with h | h
        · exact hp y h hne
        · rw [List.mem_singleton] at h
          subst h
          exact fun hd => hz ⟨hne, hd⟩
  exact key [] l rfl (by simp)

/-! ### The tables -/

/-- Every table entry lists blocks in order. -/
def Listed (c : Cfg) (d : Dom) : Prop := ∀ b, ∃ P : Blk → Bool, d b = (List.range c.length).filter P

theorem listed_count {c : Cfg} {d : Dom} (h : Listed c d) (p x : Blk) : (d p).count x = if x ∈ d p then 1 else 0 := by
  obtain ⟨P, e⟩ := h p
  have hn : (d p).Nodup := by rw [e]; exact List.Nodup.sublist List.filter_sublist List.nodup_range
  exact hn.count

theorem count_full {c : Cfg} {d : Dom} (h : Listed c d) (x : Blk) : ∀ ps : List Blk,
    (ps.map fun p => (d p).count x).sum ≤ ps.length ∧
    ((ps.map fun p => (d p).count x).sum = ps.length ↔ ∀ p ∈ ps, x ∈ d p) := by
  intro ps
  induction ps with
  | nil => simp
  | cons p ps ih =>
    simp only [List.map_cons, List.sum_cons, List.length_cons, List.forall_mem_cons]
    rw [← ih.2, listed_count h]
    have := ih.1
    split <;> rename_i hx <;> simp only [hx, true_and, false_and, iff_false] <;> omega

theorem mem_calcDom {c : Cfg} {d : Dom} (h : Listed c d) (b x : Blk) :
    x ∈ calcDom c d b ↔ x < c.length ∧ ((∀ p ∈ c.preds b, x ∈ d p) ∨ x = b) := by
  simp only [calcDom, List.mem_filter, List.mem_range, Bool.or_eq_true, beq_iff_eq, labelCount]
  rw [(count_full h x (c.preds b)).2]

theorem listed_init (c : Cfg) (h0 : 0 < c.length) : Listed c (initDom c) := by
  intro b
  by_cases hb : b = 0
  · refine ⟨fun x => x == 0, ?_⟩
    simp only [initDom, hb, if_true]
    obtain ⟨n, hn⟩ : ∃ n, c.length = n + 1 := ⟨c.length - 1, by omega⟩
    rw [hn, List.range_succ_eq_map]
    simp
  · exact ⟨fun _ => true, by rw [List.filter_eq_self.mpr (fun _ _ => rfl)]; simp [initDom, hb]⟩

theorem listed_upd {c : Cfg} {d : Dom} (h : Listed c d) (b : Blk) : Listed c (upd d b (calcDom c d b)) := by
  intro x
  by_cases hx : x = b
  · exact ⟨fun id => labelCount c d b id == (c.preds b).length || id == b, by simp only [upd, hx, if_true, calcDom]⟩
  · simpa [upd, hx] using h x

/-- An invariant of single updates is an invariant of a round. -/
theorem domPass_inv {c : Cfg} {P : Dom → Prop} {bs : List Blk}
    (hP : ∀ d, P d → ∀ b ∈ bs, P (upd d b (calcDom c d b))) :
    ∀ (bs' : List Blk), (∀ b ∈ bs', b ∈ bs) → ∀ d ch, P d → P (domPass c bs' d ch).1 := by
  intro bs'
  induction bs' with
  | nil => intro _ d ch h; exact h
  | cons b rest ih =>
    intro hs d ch h
    simp only [domPass]
    split
    · exact ih (fun x hx => hs x (List.mem_cons_of_mem _ hx)) _ _ (hP d h b (hs b (List.mem_cons_self)))
    · exact ih (fun x hx => hs x (List.mem_cons_of_mem _ hx)) _ _ h

theorem domPass_stable {c : Cfg} : ∀ (bs : List Blk) (d : Dom) (ch : Bool), (domPass c bs d ch).2 = false →
    ch = false ∧ (domPass c bs d ch).1 = d ∧ ∀ b ∈ bs, d b = calcDom c d b := by
  intro bs
  induction bs with
  | nil => intro d ch h; exact ⟨h, rfl, by simp⟩
  | cons b rest ih =>
    intro d ch h
    simp only [domPass] at h ⊢
    split at h
    · exact absurd (ih _ _ h).1 (by simp)
    · rename_i hb
      rw [if_neg hb]
      obtain ⟨h1, h2, h3⟩ := ih _ _ h
      exact ⟨h1, h2, by simpa using ⟨Classical.not_not.mp hb, h3⟩⟩

theorem domLoop_inv {c : Cfg} {P : Dom → Prop}
    (hP : ∀ d, P d → ∀ b ∈ List.range' 1 (c.length - 1), P (upd d b (calcDom c d b))) :
    ∀ n d r, P d → domLoop c n d = some r → P r ∧ ∀ b ∈ List.range' 1 (c.length - 1), r b = calcDom c r b := by
  intro n
  induction n with
  | zero => intro d r _ h; simp [domLoop] at h
  | succ n ih =>
    intro d r h0 h
    simp only [domLoop] at h
    have hp := domPass_inv hP _ (fun b hb => hb) d false h0
    split at h
    · exact ih _ _ hp h
    · rename_i hc
      simp only [Option.some.injEq] at h
      obtain ⟨_, h2, h3⟩ := domPass_stable _ d false (by simpa using hc)
      rw [h2] at h
      subst h
      exact ⟨h0, h3⟩

/-- What is known about the tables at any time: they list blocks in order, hold every dominator, and for the entry only the entry. -/
structure DomInv (c : Cfg) (d : Dom) : Prop where
  listed : Listed c d
  zero : d 0 = [0]
  sup : ∀ b x, b < c.length → Dominates c x b → x ∈ d b

theorem domInv_init {c : Cfg} (w : Wf c) : DomInv c (initDom c) := by
  refine ⟨listed_init c w.nonempty, rfl, ?_⟩
  intro b x hb h
  by_cases hb0 : b = 0
  · subst hb0
    simp [initDom, dom_of_zero h]
  · simp only [initDom, hb0, if_false, List.mem_range]
    exact dom_lt w hb h

theorem domInv_upd {c : Cfg} (w : Wf c) {d : Dom} (h : DomInv c d) {b : Blk} (hb : b ∈ List.range' 1 (c.length - 1)) :
    DomInv c (upd d b (calcDom c d b)) := by
  have hb' : 1 ≤ b ∧ b < c.length := by
    rw [List.mem_range'_1] at hb
    omega
  refine ⟨listed_upd h.listed b, ?_, ?_⟩
  · have : ¬ 0 = b := by omega
    simp [upd, this, h.zero]
  · intro y x hy hd
    by_cases hyb : y = b
    · subst hyb
      simp only [upd, if_true]
      rw [mem_calcDom h.listed]
      refine ⟨dom_lt w hy hd, ?_⟩
      by_cases hxy : x = y
      · exact Or.inr hxy
      · refine Or.inl fun p hp => h.sup p x (preds_lt w hp).1 ?_
        exact dom_pred ((w.edge p y).mpr hp) hd hxy
    · simpa [upd, hyb] using h.sup y x hy hd

theorem domers_spec {c : Cfg} (w : Wf c) {fuel : Nat} {d : Dom} (h : domers c fuel = some d) :
    Listed c d ∧ ∀ b, b < c.length → ∀ x, x ∈ d b ↔ Dominates c x b := by
  simp only [domers] at h
  split at h
  · simp at h
  obtain ⟨hi, hfix⟩ := domLoop_inv (P := DomInv c) (fun d hd b hb => domInv_upd w hd hb) _ _ _ (domInv_init w) h
  refine ⟨hi.listed, fun b hb x => ⟨?_, hi.sup b x hb⟩⟩
  intro hx l hl
  induction hl with
  | entry => simpa [hi.zero] using hx
  | @step l p s hl hs ih =>
    have hp := (w.edge p s).mp hs
    obtain ⟨p1, p2, p3⟩ := preds_lt w hp
    rw [hfix s (by rw [List.mem_range'_1]; omega), mem_calcDom hi.listed] at hx
    rcases hx.2 with h1 | h1
    · exact List.mem_cons_of_mem _ (ih p1 (h1 p hp))
    · simp [h1]

/-! ### Termination -/

theorem calcDom_mono {c : Cfg} {d d' : Dom} (h : Listed c d) (h' : Listed c d') (hs : ∀ b x, x ∈ d' b → x ∈ d b) (b x : Blk)
    (hx : x ∈ calcDom c d' b) : x ∈ calcDom c d b := by
  rw [mem_calcDom h'] at hx
  rw [mem_calcDom h]
  exact ⟨hx.1, hx.2.imp (fun f p hp => hs p x (f p hp)) id⟩

/-- Tables only shrink. -/
structure Shrink (c : Cfg) (d : Dom) : Prop where
  listed : Listed c d
  sub : ∀ b, b ∈ List.range' 1 (c.length - 1) → ∀ x, x ∈ calcDom c d b → x ∈ d b

theorem shrink_init {c : Cfg} (h0 : 0 < c.length) : Shrink c (initDom c) := by
  refine ⟨listed_init c h0, fun b hb x hx => ?_⟩
  rw [List.mem_range'_1] at hb
  have : ¬ b = 0 := by omega
  simp only [initDom, this, if_false, List.mem_range]
  exact ((mem_calcDom (listed_init c h0) b x).mp hx).1

theorem shrink_upd {c : Cfg} {d : Dom} (h : Shrink c d) {b : Blk} (hb : b ∈ List.range' 1 (c.length - 1)) :
    Shrink c (upd d b (calcDom c d b)) := by
  have hs : ∀ y x, x ∈ upd d b (calcDom c d b) y → x ∈ d y := by
    intro y x hx
    by_cases hy : y = b
    · subst hy
      simp only [upd, if_true] at hx
      exact h.sub y hb x hx
    · simpa [upd, hy] using hx
  refine ⟨listed_upd h.listed b, fun y hy x hx => ?_⟩
  have hx' := calcDom_mono h.listed (listed_upd h.listed b) hs y x hx
  by_cases hyb : y = b
  · subst hyb
    simpa [upd] using hx'
  · simpa [upd, hyb] using h.sub y hy x hx'

theorem filter_len_le {α : Type} {P Q : α → Bool} : ∀ {l : List α}, (∀ x ∈ l, P x → Q x) →
    (l.filter P).length ≤ (l.filter Q).length ∧ ((l.filter P).length = (l.filter Q).length → l.filter P = l.filter Q) := by
  intro l
  induction l with
  | nil => intro _; simp
  | cons a l ih =>
    intro h
    obtain ⟨i1, i2⟩ := ih (fun x hx => h x (List.mem_cons_of_mem _ hx))
    by_cases hp : P a
    · have hq := h a List.mem_cons_self hp
      simp only [List.filter_cons_of_pos hp, List.filter_cons_of_pos hq, List.length_cons]
      exact ⟨by omega, fun e => by rw [i2 (by omega)]⟩
    · rw [List.filter_cons_of_neg hp]
      by_cases hq : Q a
      · rw [List.filter_cons_of_pos hq]
        simp only [List.length_cons]
        exact ⟨by omega, fun e => by omega⟩
      · rw [List.filter_cons_of_neg hq]
        exact ⟨i1, i2⟩

theorem listed_len {c : Cfg} {l l' : List Blk} (h : ∃ P : Blk → Bool, l = (List.range c.length).filter P)
    (h' : ∃ P : Blk → Bool, l' = (List.range c.length).filter P) (hs : ∀ x ∈ l', x ∈ l) :
    l'.length ≤ l.length ∧ (l'.length = l.length → l' = l) := by
  obtain ⟨P, rfl⟩ := h
  obtain ⟨Q, rfl⟩ := h'
  refine filter_len_le fun x hx hq => ?_
  have := hs x (List.mem_filter.mpr ⟨hx, hq⟩)
  exact (List.mem_filter.mp this).2

/-- Sum of the sizes of the tables. -/
def domSize (c : Cfg) (d : Dom) : Nat := ((List.range' 1 (c.length - 1)).map fun b => (d b).length).sum

theorem sum_upd_lt {f : Nat → Nat} {b x : Nat} : ∀ {l : List Nat}, l.Nodup → b ∈ l → x < f b →
    (l.map fun y => if y = b then x else f y).sum < (l.map f).sum := by
  intro l
  induction l with
  | nil => intro _ h; simp at h
  | cons a l ih =>
    intro hn hb hx
    simp only [List.map_cons, List.sum_cons]
    rw [List.nodup_cons] at hn
    by_cases ha : a = b
    · subst ha
      have : (l.map fun y => if y = a then x else f y) = l.map f := by
        apply List.map_congr_left
        intro y hy
        have : ¬ y = a := fun e => hn.1 (e ▸ hy)
        simp [this]
      rw [this]
      simp only [if_true]
      omega
    · simp only [ha, if_false]
      have := ih hn.2 ((List.mem_cons.mp hb).resolve_left fun e => ha e.symm) hx
      omega

theorem domPass_size {c : Cfg} : ∀ (bs : List Blk), (∀ b ∈ bs, b ∈ List.range' 1 (c.length - 1)) → ∀ d ch, Shrink c d →
    domSize c (domPass c bs d ch).1 ≤ domSize c d ∧
    ((domPass c bs d ch).2 = true → ch = true ∨ domSize c (domPass c bs d ch).1 < domSize c d) := by
  intro bs
  induction bs with
  | nil => intro _ d ch _; exact ⟨Nat.le_refl _, fun h => Or.inl h⟩
  | cons b rest ih =>
    intro hs d ch h
    have hb := hs b List.mem_cons_self
    simp only [domPass]
    split
    · rename_i hne
      obtain ⟨i1, i2⟩ := ih (fun x hx => hs x (List.mem_cons_of_mem _ hx)) (upd d b (calcDom c d b)) true (shrink_upd h hb)
      have hl := listed_len (h.listed b) ⟨_, by rw [calcDom]⟩ (h.sub b hb)
      have hlt : domSize c (upd d b (calcDom c d b)) < domSize c d := by
        have := sum_upd_lt (f := fun y => (d y).length) (b := b) (x := (calcDom c d b).length)
          (l := List.range' 1 (c.length - 1)) List.nodup_range' hb (by
            rcases Nat.lt_or_eq_of_le hl.1 with h | h
            · exact h
            · exact absurd (hl.2 h).symm hne)
        simp only [domSize]
        refine Nat.lt_of_le_of_lt (Nat.le_of_eq ?_) this
        congr 1
        apply List.map_congr_left
        intro y _
        simp only [upd]
        split <;> rfl
      exact ⟨by omega, fun _ => Or.inr (by omega)⟩
    · exact ih (fun x hx => hs x (List.mem_cons_of_mem _ hx)) d ch h

theorem domLoop_terminates {c : Cfg} : ∀ n d, Shrink c d → domSize c d < n → ∃ r, domLoop c n d = some r := by
  intro n
  induction n with
  | zero => intro d _ h; omega
  | succ n ih =>
    intro d hd h
    simp only [domLoop]
    obtain ⟨s1, s2⟩ := domPass_size (List.range' 1 (c.length - 1)) (fun b hb => hb) d false hd
    split
    · rename_i hc
      have := (s2 hc).resolve_left (by simp)
      exact ih _ (domPass_inv (P := Shrink c) (fun d hd b hb => shrink_upd hd hb) _ (fun b hb => hb) _ _ hd) (by omega)
    · exact ⟨_, rfl⟩

theorem domSize_init (c : Cfg) : domSize c (initDom c) ≤ (c.length - 1) * c.length := by
  have : ∀ l : List Nat, (∀ b ∈ l, 1 ≤ b) → (l.map fun b => (initDom c b).length).sum = l.length * c.length := by
    intro l
    induction l with
    | nil => intro _; simp
    | cons b l ih =>
      intro h
      have hb : ¬ b = 0 := by have := h b List.mem_cons_self; omega
      simp only [List.map_cons, List.sum_cons, List.length_cons, Nat.add_mul, Nat.one_mul]
      rw [ih (fun x hx => h x (List.mem_cons_of_mem _ hx))]
      simp [initDom, hb]
      omega
  rw [domSize, this _ (fun b hb => by rw [List.mem_range'_1] at hb; omega), List.length_range']
  exact Nat.le_refl _

/-! ### Immediate dominators -/

theorem calcImmDomer_spec {c : Cfg} (w : Wf c) {d : Dom} (hd : ∀ b, b < c.length → ∀ x, x ∈ d b ↔ Dominates c x b) {b : Blk}
    (hb : b < c.length) (i : Blk) : calcImmDomer d b = some i → ImmDom c i b := by
  intro h
  have h1 := List.find?_some h
  have h2 := List.mem_of_find?_eq_some h
  simp only [Bool.and_eq_true, bne_iff_ne, ne_eq, selfIsImmDom, List.all_eq_true, Bool.or_eq_true, beq_iff_eq,
    List.contains_iff_mem] at h1
  rw [hd b hb] at h2
  refine ⟨h1.1, h2, fun e he hde => ?_⟩
  rcases h1.2 e ((hd b hb e).mpr hde) with (h | h) | h
  · subst h; exact dom_refl e
  · exact absurd h he
  · exact (hd i (dom_lt w hb h2) e).mp h

theorem calcImmDomer_some {c : Cfg} (w : Wf c) {d : Dom} (hd : ∀ b, b < c.length → ∀ x, x ∈ d b ↔ Dominates c x b) {b : Blk}
    (hb : b < c.length) (h0 : b ≠ 0) : (calcImmDomer d b).isSome := by
  obtain ⟨i, hi⟩ := immDom_exists w hb h0
  rw [calcImmDomer, List.find?_isSome]
  refine ⟨i, (hd b hb i).mpr hi.2.1, ?_⟩
  simp only [Bool.and_eq_true, bne_iff_ne, ne_eq, selfIsImmDom, List.all_eq_true, Bool.or_eq_true, beq_iff_eq,
    List.contains_iff_mem]
  refine ⟨hi.1, fun e he => ?_⟩
  by_cases heb : e = b
  · exact Or.inl (Or.inr heb)
  · exact Or.inr ((hd i (dom_lt w hb hi.2.1) e).mpr (hi.2.2 e heb ((hd b hb e).mp he)))

/-- The table of immediate dominators. -/
def IdomOk (c : Cfg) (idom : Blk → Option Blk) : Prop :=
  ∀ b i, idom b = some i ↔ b < c.length ∧ b ≠ 0 ∧ ImmDom c i b

theorem immDomers_spec {c : Cfg} (w : Wf c) {d : Dom} (hd : ∀ b, b < c.length → ∀ x, x ∈ d b ↔ Dominates c x b)
    {idom : Blk → Option Blk} (h : immDomers c d = some idom) : IdomOk c idom := by
  simp only [immDomers] at h
  split at h
  · simp only [Option.some.injEq] at h
    subst h
    intro b i
    by_cases hb : b = 0 ∨ c.length ≤ b
    · simp only [hb, if_true]
      constructor
      · intro h; simp at h
      · rintro ⟨h1, h2, _⟩; omega
    · simp only [hb, if_false]
      have hb' : b < c.length ∧ b ≠ 0 := by omega
      constructor
      · intro h
        exact ⟨hb'.1, hb'.2, calcImmDomer_spec w hd hb'.1 i h⟩
      · rintro ⟨_, _, h⟩
        obtain ⟨j, hj⟩ := Option.isSome_iff_exists.mp (calcImmDomer_some w hd hb'.1 hb'.2)
        rw [hj, immDom_unique w hb'.1 (calcImmDomer_spec w hd hb'.1 j hj) h]
  · simp at h

theorem immDomers_some {c : Cfg} (w : Wf c) {d : Dom} (hd : ∀ b, b < c.length → ∀ x, x ∈ d b ↔ Dominates c x b) :
    ∃ idom, immDomers c d = some idom := by
  simp only [immDomers]
  rw [if_pos]
  · exact ⟨_, rfl⟩
  · rw [List.all_eq_true]
    intro b hb
    rw [List.mem_range'_1] at hb
    exact calcImmDomer_some w hd (by omega) (by omega)

end Nature.Ssa
