import Verif.ConcGc.Spec
namespace Nature.ConcGc

@[simp] theorem upd_same {α : Type} (f : Nat → α) (k : Nat) (v : α) : upd f k v k = v := by simp [upd]

theorem upd_ne {α : Type} (f : Nat → α) {k j : Nat} (v : α) (h : j ≠ k) : upd f k v j = f j := by simp [upd, h]

theorem mem_ptrs {l : List (Option Nat)} {y : Nat} : y ∈ ptrs l ↔ some y ∈ l := by
  simp [ptrs]

/-- Values moved into a slot by a coroutine whose stack is not scanned, before the barrier. -/
def Base (s : St) (y : Nat) : Prop := ∃ c l, s.flight c = .moved l (some y) ∧ s.black c = false

/-- The objects that marking will find without the stacks that are still to be scanned. -/
inductive Prot (s : St) : Nat → Prop
  | marked (y : Nat) (h : s.marked y = true) : Prot s y
  | pend (y : Nat) (h : y ∈ s.pending) : Prot s y
  | base (y : Nat) (h : Base s y) : Prot s y
  | step (x y : Nat) (hx : Prot s x) (hm : s.marked x = false) (h : Child s x y) : Prot s y

structure Inv (s : St) : Prop where
  closed : ∀ x y, s.marked x = true → Child s x y → Prot s y
  stacks : ∀ c, s.black c = true → ∀ y ∈ s.stack c, Prot s y
  globs : ∀ y, some y ∈ s.globals → Prot s y
  flying : ∀ c l y, s.flight c = .barriered l (some y) → Prot s y
  flyingM : ∀ c l y, s.flight c = .moved l (some y) → Prot s y
  fresh : ∀ o, s.next ≤ o → s.heap o = []
  nocos : ∀ c, s.cos ≤ c → s.flight c = .idle

theorem prot_closed {s : St} (hi : Inv s) {x y : Nat} (hx : Prot s x) (h : Child s x y) : Prot s y := by
  by_cases hm : s.marked x = true
  · exact hi.closed x y hm h
  · exact .step x y hx (by simpa using hm) h

theorem mono {s s' : St}
    (hm : ∀ x, s.marked x = true → s'.marked x = true ∨ x ∈ s'.pending)
    (hp : ∀ x ∈ s.pending, x ∈ s'.pending ∨ s'.marked x = true)
    (hb : ∀ y, Base s y → Base s' y ∨ y ∈ s'.pending)
    (hd : ∀ x y, s.marked x = false → Child s x y → (s'.marked x = false ∧ Child s' x y) ∨ y ∈ s'.pending ∨ s'.marked y = true)
    {y : Nat} (h : Prot s y) : Prot s' y := by
  induction h with
  | marked y h => exact (hm y h).elim (.marked y) (.pend y)
  | pend y h => exact (hp y h).elim (.pend y) (.marked y)
  | base y h => exact (hb y h).elim (.base y) (.pend y)
  | step x y _ hmx h ih =>
    rcases hd x y hmx h with ⟨h1, h2⟩ | h1 | h1
    · exact .step x y ih h1 h2
    · exact .pend y h1
    · exact .marked y h1

theorem start_inv {s : St} (h : Start s) : Inv s where
  closed x y hx := by rw [h.marked] at hx; cases hx
  stacks c hc := by rw [h.black] at hc; cases hc
  globs y hy := .pend y (by rw [h.pending]; exact mem_ptrs.mpr hy)
  flying c l y hf := by rw [h.flight] at hf; cases hf
  flyingM c l y hf := by rw [h.flight] at hf; cases hf
  fresh := h.fresh
  nocos c _ := h.flight c

/-- Shading an object. -/
theorem shade_mono {s : St} (o : Nat) {y : Nat} (h : Prot s y) : Prot (shade s o) y := by
  refine mono ?_ ?_ ?_ ?_ h
  · intro x hx
    by_cases e : x = o
    · subst e; right; exact List.mem_cons_self
    · left; simp only [shade, upd_ne _ _ e]; exact hx
  · intro x hx; exact Or.inl (List.mem_cons_of_mem _ hx)
  · intro y hy; exact Or.inl hy
  · intro x y hx hc
    left
    refine ⟨?_, hc⟩
    by_cases e : x = o
    · subst e; simp [shade]
    · simp only [shade, upd_ne _ _ e]; exact hx

theorem shade_marked {s : St} {o x : Nat} (h : (shade s o).marked x = true) : s.marked x = true := by
  by_cases e : x = o
  · subst e; simp [shade] at h
  · simpa only [shade, upd_ne _ _ e] using h

theorem shade_inv {s : St} (hi : Inv s) (o : Nat) : Inv (shade s o) where
  closed x y hx hc := shade_mono o (hi.closed x y (shade_marked hx) hc)
  stacks c hc y hy := shade_mono o (hi.stacks c hc y hy)
  globs y hy := shade_mono o (hi.globs y hy)
  flying c l y hf := shade_mono o (hi.flying c l y hf)
  flyingM c l y hf := shade_mono o (hi.flyingM c l y hf)
  fresh := hi.fresh
  nocos := hi.nocos

theorem shade_self (s : St) (o : Nat) : Prot (shade s o) o := .pend o List.mem_cons_self

theorem shadeSlot_inv {s : St} (hi : Inv s) (l : Loc) : Inv (shadeSlot s l) := by
  cases l with
  | heap o i => exact shade_inv hi o
  | glob g => exact hi

theorem shadeSlot_mono {s : St} (l : Loc) {y : Nat} (h : Prot s y) : Prot (shadeSlot s l) y := by
  cases l with
  | heap o i => exact shade_mono o h
  | glob g => exact h

theorem barrier_inv {s : St} (hi : Inv s) (c : Nat) (l : Loc) (v : Option Nat) : Inv (barrier s c l v) := by
  cases v with
  | none => exact shadeSlot_inv hi l
  | some y =>
    simp only [barrier]
    split
    · exact shadeSlot_inv hi l
    · exact shade_inv (shadeSlot_inv hi l) y

theorem barrier_mono {s : St} (c : Nat) (l : Loc) (v : Option Nat) {y : Nat} (h : Prot s y) :
    Prot (barrier s c l v) y := by
  cases v with
  | none => exact shadeSlot_mono l h
  | some z =>
    simp only [barrier]
    split
    · exact shadeSlot_mono l h
    · exact shade_mono z (shadeSlot_mono l h)

theorem shadeSlot_fields (s : St) (l : Loc) : (shadeSlot s l).heap = s.heap ∧ (shadeSlot s l).next = s.next ∧
    (shadeSlot s l).globals = s.globals ∧ (shadeSlot s l).stack = s.stack ∧ (shadeSlot s l).cos = s.cos ∧
    (shadeSlot s l).black = s.black ∧ (shadeSlot s l).flight = s.flight := by
  cases l <;> exact ⟨rfl, rfl, rfl, rfl, rfl, rfl, rfl⟩

theorem barrier_fields (s : St) (c : Nat) (l : Loc) (v : Option Nat) :
    (barrier s c l v).heap = s.heap ∧ (barrier s c l v).next = s.next ∧
    (barrier s c l v).globals = s.globals ∧ (barrier s c l v).stack = s.stack ∧ (barrier s c l v).cos = s.cos ∧
    (barrier s c l v).black = s.black ∧ (barrier s c l v).flight = s.flight := by
  cases v with
  | none => exact shadeSlot_fields s l
  | some y =>
    simp only [barrier]
    split
    · exact shadeSlot_fields s l
    · exact shadeSlot_fields s l

/-- After the barrier the new value is protected, if it was on the stack of the coroutine that runs it. -/
theorem barrier_new {s : St} (c : Nat) (l : Loc) (y : Nat) (hy : s.black c = true → Prot s y) :
    Prot (barrier s c l (some y)) y := by
  simp only [barrier]
  split
  · rename_i hb; exact shadeSlot_mono l (hy hb)
  · exact shade_self _ y

/-- Ending a flight whose value was not a base. -/
theorem setFlight_mono {s : St} (c : Nat) (f : Flight) (hc : ∀ l y, s.flight c = .moved l (some y) → s.black c = false → y ∈ s.pending)
    {y : Nat} (h : Prot s y) : Prot { s with flight := upd s.flight c f } y := by
  refine mono (s := s) ?_ ?_ ?_ ?_ h
  · intro x hx; exact Or.inl hx
  · intro x hx; exact Or.inl hx
  · rintro y ⟨c', l, hf, hb⟩
    by_cases e : c' = c
    · subst e; exact Or.inr (hc l y hf hb)
    · left
      refine ⟨c', l, ?_, hb⟩
      simp only [upd_ne _ _ e]; exact hf
  · intro x y hx hc; exact Or.inl ⟨hx, hc⟩

theorem setFlight_inv {s : St} (hi : Inv s) (c : Nat) (f : Flight) (hlt : c < s.cos)
    (hc : ∀ l y, s.flight c = .moved l (some y) → s.black c = false → y ∈ s.pending)
    (hf : ∀ l y, (f = .barriered l (some y) ∨ f = .moved l (some y)) → Prot { s with flight := upd s.flight c f } y) :
    Inv { s with flight := upd s.flight c f } where
  closed x y hx h := setFlight_mono c f hc (hi.closed x y hx h)
  stacks d hd y hy := setFlight_mono c f hc (hi.stacks d hd y hy)
  globs y hy := setFlight_mono c f hc (hi.globs y hy)
  flying d l y h := by
    by_cases e : d = c
    · subst e
      simp only [upd_same] at h
      exact hf l y (Or.inl h)
    · simp only [upd_ne _ _ e] at h
      exact setFlight_mono c f hc (hi.flying d l y h)
  flyingM d l y h := by
    by_cases e : d = c
    · subst e
      simp only [upd_same] at h
      exact hf l y (Or.inr h)
    · simp only [upd_ne _ _ e] at h
      exact setFlight_mono c f hc (hi.flyingM d l y h)
  fresh := hi.fresh
  nocos d hd := by
    have : d ≠ c := by have : s.cos ≤ d := hd; omega
    simp only [upd_ne _ _ this]; exact hi.nocos d hd

/-- A store that overwrites no pointer to a white object. -/
theorem write_mono {s : St} (l : Loc) (v : Option Nat) (hk : Keeps s l v) {y : Nat} (h : Prot s y) :
    Prot (writeLoc s l v) y := by
  cases l with
  | glob g =>
    exact mono (s := s) (s' := writeLoc s (.glob g) v) (fun x hx => Or.inl hx) (fun x hx => Or.inl hx)
      (fun y hy => Or.inl hy) (fun x y hx hc => Or.inl ⟨hx, hc⟩) h
  | heap o i =>
    refine mono (s := s) ?_ ?_ ?_ ?_ h
    · intro x hx; exact Or.inl hx
    · intro x hx; exact Or.inl hx
    · intro y hy; exact Or.inl hy
    intro x y hx hc
    by_cases e : x = o
    · subst e
      obtain ⟨j, hj, hjy⟩ := List.mem_iff_getElem.mp hc
      by_cases ej : i = j
      · subst ej
        rcases hk y (by rw [List.getElem?_eq_getElem hj, hjy]) with h1 | h1
        · left
          refine ⟨hx, ?_⟩
          show some y ∈ upd s.heap x ((s.heap x).set i v) x
          rw [upd_same, h1]
          exact List.mem_set hj (some y)
        · right
          by_cases hp : y ∈ s.pending
          · exact Or.inl hp
          · right
            by_cases hm : s.marked y = true
            · exact hm
            · exact absurd ⟨by simpa using hm, hp⟩ h1
      · left
        refine ⟨hx, ?_⟩
        show some y ∈ upd s.heap x ((s.heap x).set i v) x
        rw [upd_same]
        refine List.mem_iff_getElem.mpr ⟨j, by simpa using hj, ?_⟩
        rw [List.getElem_set_ne ej, hjy]
    · left
      refine ⟨hx, ?_⟩
      show some y ∈ upd s.heap o ((s.heap o).set i v) x
      rw [upd_ne _ _ e]; exact hc

theorem write_fields (s : St) (l : Loc) (v : Option Nat) :
    (writeLoc s l v).stack = s.stack ∧ (writeLoc s l v).cos = s.cos ∧ (writeLoc s l v).black = s.black ∧
    (writeLoc s l v).flight = s.flight ∧ (writeLoc s l v).pending = s.pending ∧ (writeLoc s l v).marked = s.marked ∧
    (writeLoc s l v).next = s.next := by
  cases l <;> exact ⟨rfl, rfl, rfl, rfl, rfl, rfl, rfl⟩

theorem write_inv {s : St} (hi : Inv s) (l : Loc) (v : Option Nat) (hk : Keeps s l v)
    (hv : ∀ y, v = some y → Prot s y) : Inv (writeLoc s l v) := by
  obtain ⟨e1, e2, e3, e4, _, e6, e7⟩ := write_fields s l v
  refine ⟨fun x y hx hc => ?_, fun c hc y hy => ?_, fun y hy => ?_, fun c l' y hf => ?_, fun c l' y hf => ?_, fun o ho => ?_,
    fun c hc => ?_⟩
  · rw [e6] at hx
    cases l with
    | glob g => exact write_mono _ v hk (hi.closed x y hx hc)
    | heap o i =>
      have hc' : some y ∈ upd s.heap o ((s.heap o).set i v) x := hc
      by_cases e : x = o
      · subst e
        rw [upd_same] at hc'
        rcases List.mem_or_eq_of_mem_set hc' with h | h
        · exact write_mono _ v hk (hi.closed x y hx h)
        · exact write_mono _ v hk (hv y h.symm)
      · rw [upd_ne _ _ e] at hc'
        exact write_mono _ v hk (hi.closed x y hx hc')
  · rw [e3] at hc; rw [e1] at hy
    exact write_mono _ v hk (hi.stacks c hc y hy)
  · cases l with
    | glob g =>
      have hy' : some y ∈ s.globals.set g v := hy
      rcases List.mem_or_eq_of_mem_set hy' with h | h
      · exact write_mono _ v hk (hi.globs y h)
      · exact write_mono _ v hk (hv y h.symm)
    | heap o i => exact write_mono _ v hk (hi.globs y hy)
  · rw [e4] at hf; exact write_mono _ v hk (hi.flying c l' y hf)
  · rw [e4] at hf; exact write_mono _ v hk (hi.flyingM c l' y hf)
  · rw [e7] at ho
    have := hi.fresh o ho
    cases l with
    | glob g => exact this
    | heap o' i =>
      show upd s.heap o' ((s.heap o').set i v) o = []
      by_cases e : o = o'
      · subst e; rw [upd_same, this]; rfl
      · rw [upd_ne _ _ e]; exact this
  · rw [e2] at hc; rw [e4]; exact hi.nocos c hc

theorem lt_cos {s : St} (hi : Inv s) {c : Nat} (h : s.flight c ≠ .idle) : c < s.cos := by
  apply Nat.lt_of_not_le
  intro hc
  exact h (hi.nocos c hc)

/-- Changing one stack. -/
theorem setStack_inv {s : St} (hi : Inv s) (c : Nat) (l : List Nat) (hl : s.black c = true → ∀ y ∈ l, Prot s y) :
    Inv { s with stack := upd s.stack c l } := by
  have m : ∀ {y}, Prot s y → Prot { s with stack := upd s.stack c l } y := by
    intro y h
    refine mono (s := s) ?_ ?_ ?_ ?_ h
    · intro x hx; exact Or.inl hx
    · intro x hx; exact Or.inl hx
    · intro y hy; exact Or.inl hy
    · intro x y hx hc; exact Or.inl ⟨hx, hc⟩
  refine ⟨fun x y hx hc => m (hi.closed x y hx hc), fun d hd y hy => ?_, fun y hy => m (hi.globs y hy),
    fun c l y hf => m (hi.flying c l y hf), fun c l y hf => m (hi.flyingM c l y hf), hi.fresh, hi.nocos⟩
  by_cases e : d = c
  · subst e
    simp only [upd_same] at hy
    exact m (hl hd y hy)
  · simp only [upd_ne _ _ e] at hy
    exact m (hi.stacks d hd y hy)

theorem scan_inv {s : St} (hi : Inv s) (c : Nat) (hidle : s.flight c = .idle) :
    Inv { s with pending := s.stack c ++ s.pending, black := upd s.black c true } := by
  have m : ∀ {y}, Prot s y → Prot { s with pending := s.stack c ++ s.pending, black := upd s.black c true } y := by
    intro y h
    refine mono (s := s) ?_ ?_ ?_ ?_ h
    · intro x hx; exact Or.inl hx
    · intro x hx; exact Or.inl (List.mem_append_right _ hx)
    rotate_left
    · intro x y hx hc; exact Or.inl ⟨hx, hc⟩
    rintro y ⟨d, l, hf, hb⟩
    left
    have : d ≠ c := by intro e; subst e; rw [hidle] at hf; cases hf
    exact ⟨d, l, hf, by simp only [upd_ne _ _ this]; exact hb⟩
  refine ⟨fun x y hx hc => m (hi.closed x y hx hc), fun d hd y hy => ?_, fun y hy => m (hi.globs y hy),
    fun c l y hf => m (hi.flying c l y hf), fun c l y hf => m (hi.flyingM c l y hf), hi.fresh, hi.nocos⟩
  by_cases e : d = c
  · subst e; exact .pend y (List.mem_append_left _ hy)
  · simp only [upd_ne _ _ e] at hd
    exact m (hi.stacks d hd y hy)

theorem mem_eraseIdx_or {l : List Nat} {k o x : Nat} (h : l[k]? = some o) (hx : x ∈ l) : x = o ∨ x ∈ l.eraseIdx k := by
  obtain ⟨hk, hko⟩ := List.getElem?_eq_some_iff.mp h
  obtain ⟨j, hj, hjx⟩ := List.mem_iff_getElem.mp hx
  by_cases e : j = k
  · subst e; left; rw [← hjx, hko]
  · right
    exact List.mem_eraseIdx_iff_getElem.mpr ⟨j, hj, e, hjx⟩

theorem serve_inv {s : St} (hi : Inv s) (k o : Nat) (h : s.pending[k]? = some o) :
    Inv (handle { s with pending := s.pending.eraseIdx k } o) := by
  rw [handle]
  simp only
  split
  · rename_i hm
    have m : ∀ {y}, Prot s y → Prot { s with pending := s.pending.eraseIdx k } y := by
      intro y hy
      refine mono (s := s) ?_ ?_ ?_ ?_ hy
      · intro x hx; exact Or.inl hx
      · intro x hx
        rcases mem_eraseIdx_or h hx with e | hx'
        · subst e; exact Or.inr hm
        · exact Or.inl hx'
      · intro y hy; exact Or.inl hy
      · intro x y hx hc; exact Or.inl ⟨hx, hc⟩
    exact ⟨fun x y hx hc => m (hi.closed x y hx hc), fun d hd y hy => m (hi.stacks d hd y hy), fun y hy => m (hi.globs y hy),
      fun c l y hf => m (hi.flying c l y hf), fun c l y hf => m (hi.flyingM c l y hf), hi.fresh, hi.nocos⟩
  · rename_i hm
    have m : ∀ {y}, Prot s y → Prot { s with marked := upd s.marked o true, pending := ptrs (s.heap o) ++ s.pending.eraseIdx k } y := by
      intro y hy
      refine mono (s := s) ?_ ?_ ?_ ?_ hy
      · intro x hx
        left
        by_cases e : x = o
        · subst e; simp
        · simp only [upd_ne _ _ e]; exact hx
      · intro x hx
        rcases mem_eraseIdx_or h hx with e | hx'
        · subst e; right; simp
        · exact Or.inl (List.mem_append_right _ hx')
      · intro y hy; exact Or.inl hy
      · intro x y hx hc
        by_cases e : x = o
        · subst e
          right; left
          exact List.mem_append_left _ (mem_ptrs.mpr hc)
        · left
          refine ⟨?_, hc⟩
          simp only [upd_ne _ _ e]; exact hx
    refine ⟨fun x y hx hc => ?_, fun d hd y hy => m (hi.stacks d hd y hy), fun y hy => m (hi.globs y hy),
      fun c l y hf => m (hi.flying c l y hf), fun c l y hf => m (hi.flyingM c l y hf), hi.fresh, hi.nocos⟩
    by_cases e : x = o
    · subst e
      exact .pend y (List.mem_append_left _ (mem_ptrs.mpr hc))
    · simp only [upd_ne _ _ e] at hx
      exact m (hi.closed x y hx hc)

/-- The state after an allocation. -/
abbrev allocSt (s : St) (c n : Nat) : St :=
  { s with next := s.next + 1, heap := upd s.heap s.next (List.replicate n none),
           marked := upd s.marked s.next true, stack := upd s.stack c (s.next :: s.stack c) }

theorem alloc_inv {s : St} (hi : Inv s) (c n : Nat) : Inv (allocSt s c n) := by
  have hnil := hi.fresh s.next (Nat.le_refl _)
  have m : ∀ {y}, Prot s y → Prot (allocSt s c n) y := by
    intro y hy
    refine mono (s := s) ?_ ?_ ?_ ?_ hy
    · intro x hx
      left
      by_cases e : x = s.next
      · subst e; simp
      · simp only [upd_ne _ _ e]; exact hx
    · intro x hx; exact Or.inl hx
    · intro y hy; exact Or.inl hy
    · intro x y hx hc
      by_cases e : x = s.next
      · subst e
        unfold Child at hc; rw [hnil] at hc; simp at hc
      · left
        refine ⟨?_, ?_⟩
        · simp only [upd_ne _ _ e]; exact hx
        · simp only [Child, upd_ne _ _ e]; exact hc
  refine ⟨fun x y hx hc => ?_, fun d hd y hy => ?_, fun y hy => m (hi.globs y hy),
    fun c l y hf => m (hi.flying c l y hf), fun c l y hf => m (hi.flyingM c l y hf), fun o ho => ?_, hi.nocos⟩
  · by_cases e : x = s.next
    · subst e
      simp [Child] at hc
    · simp only [upd_ne _ _ e] at hx
      simp only [Child, upd_ne _ _ e] at hc
      exact m (hi.closed x y hx hc)
  · by_cases e : d = c
    · subst e
      simp only [upd_same] at hy
      rcases List.mem_cons.mp hy with rfl | hy
      · exact .marked _ (by simp)
      · exact m (hi.stacks d hd y hy)
    · simp only [upd_ne _ _ e] at hy
      exact m (hi.stacks d hd y hy)
  · have ho' : s.next + 1 ≤ o := ho
    simp only [upd_ne _ _ (show o ≠ s.next by omega)]
    exact hi.fresh o (by omega)

theorem foldShade_fields : ∀ (args : List Nat) (s : St), (args.foldl shade s).heap = s.heap ∧
    (args.foldl shade s).next = s.next ∧ (args.foldl shade s).globals = s.globals ∧
    (args.foldl shade s).stack = s.stack ∧ (args.foldl shade s).cos = s.cos ∧
    (args.foldl shade s).black = s.black ∧ (args.foldl shade s).flight = s.flight
  | [], _ => ⟨rfl, rfl, rfl, rfl, rfl, rfl, rfl⟩
  | a :: l, s => foldShade_fields l (shade s a)

theorem foldShade_inv : ∀ (args : List Nat) (s : St), Inv s → Inv (args.foldl shade s)
  | [], _, h => h
  | a :: l, s, h => foldShade_inv l (shade s a) (shade_inv h a)

theorem foldShade_mono : ∀ (args : List Nat) (s : St) {y : Nat}, Prot s y → Prot (args.foldl shade s) y
  | [], _, _, h => h
  | a :: l, s, _, h => foldShade_mono l (shade s a) (shade_mono a h)

theorem foldShade_prot : ∀ (args : List Nat) (s : St) {y : Nat}, y ∈ args → Prot (args.foldl shade s) y
  | a :: l, s, y, h => by
    rcases List.mem_cons.mp h with rfl | h
    · exact foldShade_mono l _ (shade_self s y)
    · exact foldShade_prot l (shade s a) h

/-- A new coroutine whose stack is protected. -/
theorem addCo_inv {s : St} (hi : Inv s) (args : List Nat) (ha : ∀ y ∈ args, Prot s y) :
    Inv { s with cos := s.cos + 1, stack := upd s.stack s.cos args, black := upd s.black s.cos true,
                 flight := upd s.flight s.cos .idle } := by
  have hidle := hi.nocos s.cos (Nat.le_refl _)
  have hfl : upd s.flight s.cos .idle = s.flight := by
    funext d
    by_cases e : d = s.cos
    · subst e; rw [upd_same, hidle]
    · rw [upd_ne _ _ e]
  rw [hfl]
  have m : ∀ {y}, Prot s y → Prot { s with cos := s.cos + 1, stack := upd s.stack s.cos args, black := upd s.black s.cos true } y := by
    intro y h
    refine mono (s := s) ?_ ?_ ?_ ?_ h
    · intro x hx; exact Or.inl hx
    · intro x hx; exact Or.inl hx
    rotate_left
    · intro x y hx hc; exact Or.inl ⟨hx, hc⟩
    rintro y ⟨d, l, hf, hb⟩
    left
    have : d ≠ s.cos := by intro e; subst e; rw [hidle] at hf; cases hf
    exact ⟨d, l, hf, by simp only [upd_ne _ _ this]; exact hb⟩
  refine ⟨fun x y hx hc => m (hi.closed x y hx hc), fun d hd y hy => ?_, fun y hy => m (hi.globs y hy),
    fun c l y hf => m (hi.flying c l y hf), fun c l y hf => m (hi.flyingM c l y hf), hi.fresh, fun d hd => ?_⟩
  · by_cases e : d = s.cos
    · subst e
      simp only [upd_same] at hy
      exact m (ha y hy)
    · simp only [upd_ne _ _ e] at hy hd
      exact m (hi.stacks d hd y hy)
  · have : s.cos + 1 ≤ d := hd
    exact hi.nocos d (by omega)

theorem restart_inv {s : St} (hi : Inv s) (hidle : ∀ c, c < s.cos → s.flight c = .idle) :
    Inv { s with black := fun _ => false, pending := ptrs s.globals ++ s.pending } := by
  have hall : ∀ c, s.flight c = .idle := by
    intro c
    by_cases h : c < s.cos
    · exact hidle c h
    · exact hi.nocos c (Nat.le_of_not_lt h)
  have m : ∀ {y}, Prot s y → Prot { s with black := fun _ => false, pending := ptrs s.globals ++ s.pending } y := by
    intro y h
    refine mono (s := s) ?_ ?_ ?_ ?_ h
    · intro x hx; exact Or.inl hx
    · intro x hx; exact Or.inl (List.mem_append_right _ hx)
    rotate_left
    · intro x y hx hc; exact Or.inl ⟨hx, hc⟩
    rintro y ⟨d, l, hf, _⟩
    rw [hall d] at hf; cases hf
  exact ⟨fun x y hx hc => m (hi.closed x y hx hc), fun d hd y hy => (by cases hd), fun y hy => m (hi.globs y hy),
    fun c l y hf => m (hi.flying c l y hf), fun c l y hf => m (hi.flyingM c l y hf), hi.fresh, hi.nocos⟩

theorem runs_iff {s : St} {c : Nat} (h : s.runs c = true) : c < s.cos ∧ s.flight c = .idle := by
  simpa [St.runs] using h

theorem hasVal_prot {s : St} (hi : Inv s) {c : Nat} {v : Option Nat} (h : s.hasVal c v = true) :
    ∀ y, v = some y → s.black c = true → Prot s y := by
  rintro y rfl hb
  exact hi.stacks c hb y (by simpa [St.hasVal] using h)

theorem canUse_prot {s : St} (hi : Inv s) {c : Nat} {l : Loc} (h : s.canUse c l = true) {y : Nat}
    (hr : readLoc s l = some (some y)) (hb : s.black c = true) : Prot s y := by
  cases l with
  | glob g =>
    exact hi.globs y (List.mem_of_getElem? hr)
  | heap o i =>
    simp only [St.canUse, Bool.and_eq_true, decide_eq_true_eq] at h
    exact prot_closed hi (hi.stacks c hb o h.1) (List.mem_of_getElem? hr)

theorem step_inv {s s' : St} {e : Ev} (hi : Inv s) (hs : Safe s e) (he : apply s e = some s') : Inv s' := by
  cases e with
  | scan c =>
    simp only [apply] at he
    split at he
    · rename_i hr; cases he
      exact scan_inv hi c (runs_iff hr).2
    · cases he
  | serve k =>
    simp only [apply] at he
    split at he
    · cases he
    · rename_i o ho; cases he
      exact serve_inv hi k o ho
  | load c l =>
    simp only [apply] at he
    split at he
    · rename_i hr
      rw [Bool.and_eq_true] at hr
      split at he
      · rename_i y hy
        cases he
        apply setStack_inv hi
        intro hb z hz
        rcases List.mem_cons.mp hz with rfl | hz
        · exact canUse_prot hi hr.2 hy hb
        · exact hi.stacks c hb z hz
      · cases he
    · cases he
  | drop c k =>
    simp only [apply] at he
    split at he
    · cases he
      exact setStack_inv hi c _ (fun hb y hy => hi.stacks c hb y (List.mem_of_mem_eraseIdx hy))
    · cases he
  | alloc c n =>
    simp only [apply] at he
    split at he
    · cases he
      exact alloc_inv hi c n
    · cases he
  | store c l v =>
    simp only [apply] at he
    split at he
    · rename_i hr
      simp only [Bool.and_eq_true] at hr
      obtain ⟨⟨hrun, _⟩, hval⟩ := hr
      obtain ⟨hlt, hidle⟩ := runs_iff hrun
      cases he
      obtain ⟨_, _, _, _, f5, f6, f7⟩ := barrier_fields s c l v
      have := setFlight_inv (barrier_inv hi c l v) c (.barriered l v) (by rw [f5]; exact hlt)
        (by intro l' y h; rw [f7, hidle] at h; cases h)
        (by
          rintro l' y (h | h)
          · cases h
            refine setFlight_mono c _ (by intro l' y h; rw [f7, hidle] at h; cases h) ?_
            exact barrier_new c l y (hasVal_prot hi hval y rfl)
          · cases h)
      rw [f7] at this
      exact this
    · cases he
  | move c l v =>
    simp only [apply] at he
    split at he
    · rename_i hr
      simp only [Bool.and_eq_true] at hr
      obtain ⟨⟨hrun, _⟩, hval⟩ := hr
      obtain ⟨hlt, hidle⟩ := runs_iff hrun
      cases he
      have hmono : ∀ {y}, Prot s y → Prot { s with flight := upd s.flight c (.moved l v) } y :=
        setFlight_mono c _ (by intro l' y h; rw [hidle] at h; cases h)
      have hnew : ∀ y, v = some y → Prot { s with flight := upd s.flight c (.moved l v) } y := by
        rintro y rfl
        by_cases hb : s.black c = true
        · exact hmono (hasVal_prot hi hval y rfl hb)
        · exact .base y ⟨c, l, by simp, by simpa using hb⟩
      have h1 := setFlight_inv hi c (.moved l v) hlt (by intro l' y h; rw [hidle] at h; cases h)
        (by
          rintro l' y (h | h)
          · cases h
          · cases h; exact hnew y rfl)
      have h2 := write_inv h1 l v hs hnew
      have e : writeLoc { s with flight := upd s.flight c (.moved l v) } l v =
          { writeLoc s l v with flight := upd s.flight c (.moved l v) } := by cases l <;> rfl
      rw [e] at h2
      exact h2
    · cases he
  | post c =>
    simp only [apply] at he
    split at he
    · rename_i l v hf
      have hrd := hs l v hf
      rw [hrd] at he
      simp only at he
      cases he
      obtain ⟨_, _, _, _, f5, f6, f7⟩ := barrier_fields s c l v
      have hlt : c < s.cos := lt_cos hi (by rw [hf]; intro h; cases h)
      have hgone : ∀ l' y, (barrier s c l v).flight c = .moved l' (some y) → (barrier s c l v).black c = false →
          y ∈ (barrier s c l v).pending := by
        intro l' y h hb
        rw [f7, hf] at h; cases h
        rw [f6] at hb
        simp only [barrier, hb]
        exact List.mem_cons_self
      have := setFlight_inv (barrier_inv hi c l v) c (.barriered l v) (by rw [f5]; exact hlt) hgone
        (by
          rintro l' y (h | h)
          · cases h
            refine setFlight_mono c _ hgone ?_
            exact barrier_new c l y (fun _ => hi.flyingM c l y hf)
          · cases h)
      rw [f7] at this
      exact this
    · cases he
  | commit c =>
    simp only [apply] at he
    split at he
    · rename_i l v hf
      cases he
      have hlt : c < s.cos := lt_cos hi (by rw [hf]; intro h; cases h)
      obtain ⟨_, f2, _, f4, _⟩ := write_fields s l v
      have h1 := write_inv hi l v (hs l v hf) (by rintro y rfl; exact hi.flying c l y hf)
      have := setFlight_inv h1 c .idle (by rw [f2]; exact hlt)
        (by intro l' y h; rw [f4, hf] at h; cases h) (by rintro l' y (h | h) <;> cases h)
      rw [f4] at this
      exact this
    · cases he
  | sendBuf c o i y =>
    simp only [apply] at he
    split at he
    · rename_i hr
      simp only [Bool.and_eq_true] at hr
      cases he
      exact write_inv hi _ _ hs.2 (fun z hz => hasVal_prot hi hr.2 z hz hs.1)
    · cases he
  | sendTo c d y =>
    simp only [apply] at he
    split at he
    · rename_i hr
      simp only [Bool.and_eq_true] at hr
      cases he
      apply setStack_inv hi
      intro hb z hz
      rcases List.mem_cons.mp hz with rfl | hz
      · rcases hs with hs | hs
        · exact hasVal_prot hi hr.2 z rfl hs
        · rw [hs] at hb; cases hb
      · exact hi.stacks d hb z hz
    · cases he
  | spawn c args =>
    simp only [apply] at he
    split at he
    · cases he
      obtain ⟨f1, f2, f3, f4, f5, f6, f7⟩ := foldShade_fields args s
      have := addCo_inv (foldShade_inv args s hi) args (fun y hy => foldShade_prot args s hy)
      rw [f4, f5, f6, f7] at this
      exact this
    · cases he
  | restart =>
    simp only [apply] at he
    split at he
    · rename_i hr
      cases he
      apply restart_inv hi
      intro c hc
      rw [List.all_eq_true] at hr
      simpa using hr c (List.mem_range.mpr hc)
    · cases he

theorem run_inv {s s' : St} (hi : Inv s) (h : SafeRun s s') : Inv s' := by
  induction h with
  | refl => exact hi
  | step b c e _ hs he ih => exact step_inv ih hs he

theorem prot_done {s : St} (hd : s.done) (hi : Inv s) {y : Nat} (h : Prot s y) : s.marked y = true := by
  induction h with
  | marked y h => exact h
  | pend y h => rw [hd.1] at h; simp at h
  | base y h =>
    obtain ⟨c, l, hf, _⟩ := h
    have hlt : c < s.cos := lt_cos hi (by rw [hf]; intro h; cases h)
    rw [(hd.2 c hlt).2] at hf; cases hf
  | step x y _ hm _ ih => rw [ih] at hm; cases hm

end Nature.ConcGc
