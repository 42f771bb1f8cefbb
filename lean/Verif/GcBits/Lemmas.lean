import Verif.GcBits.Spec
namespace Nature.GcBits

def Phase.held : Phase → Option Nat
  | .first => none
  | .locked => none
  | .again f => some f
  | .onFresh f => some f

/-- The arena that the thread has obtained but not published. -/
def PC.held : PC → Option Nat
  | .read ph _ => ph.held
  | .load ph _ _ => ph.held
  | .add ph _ _ => ph.held
  | .relock _ f => some f
  | _ => none

/-- The arena that the thread is trying to allocate from. -/
def PC.target : PC → Option (Phase × Nat)
  | .load ph _ (some a) => some (ph, a)
  | .add ph _ a => some (ph, a)
  | _ => none

def Lists (s : St) : List Nat := s.next ++ (s.cur ++ (s.prev ++ s.free))

structure Inv (s : St) : Prop where
  nodup : (Lists s).Nodup
  lists_lt : ∀ a ∈ Lists s, a < s.maps
  held_lt : ∀ t f, (s.pc t).held = some f → f < s.maps
  held_out : ∀ t f, (s.pc t).held = some f → f ∉ Lists s
  held_inj : ∀ t t' f, (s.pc t).held = some f → (s.pc t').held = some f → t = t'
  target : ∀ t ph a, (s.pc t).target = some (ph, a) → (a ∈ s.next ∧ ∀ f, ph ≠ .onFresh f) ∨ ph = .onFresh a
  held_fi : ∀ t f, (s.pc t).held = some f → s.fi f = 0
  zero : ∀ a, (a ∈ s.next ∨ ∃ t, (s.pc t).held = some a) → ∀ i, s.fi a ≤ i → s.mem a i = 0
  age : ∀ b ∈ s.blocks, b.epoch ≤ s.epoch
  loc : ∀ b ∈ s.blocks, (s.epoch = b.epoch → b.arena ∈ s.next) ∧ (s.epoch = b.epoch + 1 → b.arena ∈ s.cur) ∧
    (s.epoch = b.epoch + 2 → b.arena ∈ s.prev)
  bound : ∀ b ∈ s.blocks, s.epoch ≤ b.epoch + 2 → b.start + b.len ≤ s.fi b.arena
  size : ∀ b ∈ s.blocks, b.start + b.len ≤ payload ∧ b.bits ≤ 8 * b.len
  pair : s.blocks.Pairwise (fun b c => Disjoint b c ∨ c.epoch + 3 ≤ b.epoch)
  align : ∀ a, s.fi a % 8 = 0
  balign : ∀ b ∈ s.blocks, b.start % 8 = 0

@[simp] theorem upd_same {α : Type} (f : Nat → α) (k : Nat) (v : α) : upd f k v k = v := by simp [upd]

theorem upd_ne {α : Type} (f : Nat → α) {k j : Nat} (v : α) (h : j ≠ k) : upd f k v j = f j := by simp [upd, h]

theorem bytes_mod (n : Nat) : bytesNeeded n % 8 = 0 := by simp [bytesNeeded]

theorem init_inv : Inv init := by
  refine ⟨?_, ?_, ?_, ?_, ?_, ?_, ?_, ?_, ?_, ?_, ?_, ?_, ?_, ?_, ?_⟩ <;>
    simp [init, Lists, PC.held, PC.target]

/-- Changing only the program counter of one thread, to one that holds nothing new. -/
theorem setPc_inv {s : St} (hi : Inv s) (t : Nat) (p : PC) (l : Option Nat)
    (hh : p.held = none ∨ p.held = (s.pc t).held)
    (ht : ∀ ph a, p.target = some (ph, a) → (a ∈ s.next ∧ ∀ f, ph ≠ .onFresh f) ∨ ph = .onFresh a) :
    Inv { s with pc := upd s.pc t p, lock := l } := by
  have key : ∀ t' f, (upd s.pc t p t').held = some f → (s.pc t').held = some f := by
    intro t' f h
    by_cases e : t' = t
    · subst e
      rw [upd_same] at h
      rcases hh with hh | hh
      · rw [hh] at h; cases h
      · rw [← hh]; exact h
    · rwa [upd_ne _ _ e] at h
  exact ⟨hi.nodup, hi.lists_lt, fun t' f h => hi.held_lt t' f (key t' f h), fun t' f h => hi.held_out t' f (key t' f h),
    fun t1 t2 f h1 h2 => hi.held_inj t1 t2 f (key t1 f h1) (key t2 f h2),
    fun t' ph a h => by
      by_cases e : t' = t
      · subst e
        simp only [upd_same] at h
        exact ht ph a h
      · simp only [upd_ne _ _ e] at h
        exact hi.target t' ph a h,
    fun t' f h => hi.held_fi t' f (key t' f h),
    fun a h => hi.zero a (h.elim Or.inl (fun ⟨t', h'⟩ => Or.inr ⟨t', key t' a h'⟩)),
    hi.age, hi.loc, hi.bound, hi.size, hi.pair, hi.align, hi.balign⟩

theorem fail_inv {s : St} (hi : Inv s) (t : Nat) (ph : Phase) (n : Nat) (hh : (s.pc t).held = ph.held) :
    Inv (fail s t ph n) := by
  cases ph with
  | first => exact setPc_inv hi t _ s.lock (Or.inl rfl) (by intro _ _ h; cases h)
  | locked => exact setPc_inv hi t _ s.lock (Or.inl rfl) (by intro _ _ h; cases h)
  | again f => exact setPc_inv hi t _ s.lock (Or.inr hh.symm) (by intro _ _ h; cases h)
  | onFresh f => exact setPc_inv hi t _ s.lock (Or.inl rfl) (by intro _ _ h; cases h)

theorem mem_lists_next {s : St} {a : Nat} (h : a ∈ s.next) : a ∈ Lists s := List.mem_append_left _ h

/-- Raising the free index of an arena that is on the list `next`. -/
theorem raise_inv {s : St} (hi : Inv s) (a k : Nat) (hk : k % 8 = 0) (ha : ∀ t, (s.pc t).held ≠ some a) :
    Inv { s with fi := upd s.fi a (s.fi a + k) } := by
  have hge : ∀ x, s.fi x ≤ upd s.fi a (s.fi a + k) x := by
    intro x
    by_cases e : x = a
    · subst e; rw [upd_same]; omega
    · rw [upd_ne _ _ e]; exact Nat.le_refl _
  refine ⟨hi.nodup, hi.lists_lt, hi.held_lt, hi.held_out, hi.held_inj, hi.target, fun t f h => ?_, fun x h i hx => ?_,
    hi.age, hi.loc, fun b hb hage => ?_, hi.size, hi.pair, fun x => ?_, hi.balign⟩
  · have : f ≠ a := by intro e; subst e; exact ha t h
    simp only [upd_ne _ _ this]; exact hi.held_fi t f h
  · exact hi.zero x h i (Nat.le_trans (hge x) hx)
  · exact Nat.le_trans (hi.bound b hb hage) (hge _)
  · have h1 := hi.align x
    have h2 := hi.align a
    by_cases e : x = a
    · subst e; simp only [upd_same]; omega
    · simp only [upd_ne _ _ e]; exact h1

/-- Granting a block from an arena on the list `next`. -/
theorem grant_inv {s : St} (hi : Inv s) (t a n : Nat) (l : Option Nat) (ha : a ∈ s.next)
    (hp : s.fi a + bytesNeeded n ≤ payload) :
    Inv { s with fi := upd s.fi a (s.fi a + bytesNeeded n),
                 blocks := ⟨n, a, s.fi a, bytesNeeded n, s.epoch⟩ :: s.blocks, pc := upd s.pc t PC.idle, lock := l } := by
  have hnot : ∀ t, (s.pc t).held ≠ some a := fun t h => hi.held_out t a h (mem_lists_next ha)
  have h1 := setPc_inv (raise_inv hi a (bytesNeeded n) (bytes_mod n) hnot) t PC.idle l (Or.inl rfl)
    (by intro _ _ h; cases h)
  refine ⟨h1.nodup, h1.lists_lt, h1.held_lt, h1.held_out, h1.held_inj, h1.target, h1.held_fi, h1.zero,
    fun b hb => ?_, fun b hb => ?_, fun b hb hage => ?_, fun b hb => ?_, ?_, h1.align, fun b hb => ?_⟩
  · rcases List.mem_cons.mp hb with rfl | hb
    · exact Nat.le_refl _
    · exact h1.age b hb
  · rcases List.mem_cons.mp hb with rfl | hb
    · exact ⟨fun _ => ha, fun h => absurd h (by simp), fun h => absurd h (by simp)⟩
    · exact h1.loc b hb
  · rcases List.mem_cons.mp hb with rfl | hb
    · simp
    · exact h1.bound b hb hage
  · rcases List.mem_cons.mp hb with rfl | hb
    · refine ⟨hp, ?_⟩
      simp only [bytesNeeded]; omega
    · exact h1.size b hb
  · refine List.pairwise_cons.mpr ⟨fun c hc => ?_, hi.pair⟩
    by_cases hage : s.epoch ≤ c.epoch + 2
    · left
      by_cases e : a = c.arena
      · right; right
        have := hi.bound c hc hage
        simp only; rw [e]; exact this
      · exact Or.inl e
    · right; simp only; omega
  · rcases List.mem_cons.mp hb with rfl | hb
    · exact hi.align a
    · exact h1.balign b hb

/-- Giving back an arena that was obtained for nothing. -/
theorem giveBack_inv {s : St} (hi : Inv s) (t f : Nat) (l : Option Nat) (hf : (s.pc t).held = some f) :
    Inv { s with pc := upd s.pc t PC.idle, lock := l, free := f :: s.free } := by
  have hperm : (s.next ++ (s.cur ++ (s.prev ++ f :: s.free))).Perm (f :: Lists s) := by
    have : s.next ++ (s.cur ++ (s.prev ++ f :: s.free)) = (s.next ++ (s.cur ++ s.prev)) ++ f :: s.free := by simp
    rw [this]
    refine List.perm_middle.trans ?_
    simp [Lists]
  have hout := hi.held_out t f hf
  have h1 := setPc_inv hi t PC.idle l (Or.inl rfl) (by intro _ _ h; cases h)
  have hother : ∀ t', (upd s.pc t PC.idle t').held ≠ some f := by
    intro t' h
    by_cases e : t' = t
    · subst e; rw [upd_same] at h; cases h
    · rw [upd_ne _ _ e] at h
      exact e (hi.held_inj t' t f h hf)
  refine ⟨?_, fun a ha => ?_, h1.held_lt, fun t' g h => ?_, h1.held_inj, h1.target, h1.held_fi, h1.zero,
    h1.age, h1.loc, h1.bound, h1.size, h1.pair, h1.align, h1.balign⟩
  · show (s.next ++ (s.cur ++ (s.prev ++ f :: s.free))).Nodup
    rw [hperm.nodup_iff]
    exact List.nodup_cons.mpr ⟨hout, hi.nodup⟩
  · have := hperm.mem_iff.mp ha
    rcases List.mem_cons.mp this with rfl | h'
    · exact hi.held_lt t a hf
    · exact hi.lists_lt a h'
  · intro hg
    have := hperm.mem_iff.mp hg
    rcases List.mem_cons.mp this with rfl | h'
    · exact hother t' h
    · exact h1.held_out t' g h h'

/-- Publishing a fresh arena on the list `next`. -/
theorem publish_inv {s : St} (hi : Inv s) (t f : Nat) (hf : (s.pc t).held = some f) :
    Inv { s with pc := upd s.pc t PC.idle, next := f :: s.next } := by
  have hout := hi.held_out t f hf
  have h1 := setPc_inv hi t PC.idle s.lock (Or.inl rfl) (by intro _ _ h; cases h)
  have hother : ∀ t', (upd s.pc t PC.idle t').held ≠ some f := by
    intro t' h
    by_cases e : t' = t
    · subst e; rw [upd_same] at h; cases h
    · rw [upd_ne _ _ e] at h
      exact e (hi.held_inj t' t f h hf)
  refine ⟨?_, fun a ha => ?_, h1.held_lt, fun t' g h => ?_, h1.held_inj, fun t' ph a h => ?_, h1.held_fi,
    fun a h => ?_, h1.age, fun b hb => ?_, h1.bound, h1.size, h1.pair, h1.align, h1.balign⟩
  · show (f :: Lists s).Nodup
    exact List.nodup_cons.mpr ⟨hout, hi.nodup⟩
  · have ha : a ∈ f :: Lists s := ha
    rcases List.mem_cons.mp ha with rfl | h'
    · exact hi.held_lt t a hf
    · exact hi.lists_lt a h'
  · show g ∉ f :: Lists s
    intro hg
    rcases List.mem_cons.mp hg with rfl | h'
    · exact hother t' h
    · exact h1.held_out t' g h h'
  · exact (h1.target t' ph a h).elim (fun h => Or.inl ⟨List.mem_cons_of_mem _ h.1, h.2⟩) Or.inr
  · rcases h with h | h
    · rcases List.mem_cons.mp h with rfl | h
      · exact hi.zero a (Or.inr ⟨t, hf⟩)
      · exact hi.zero a (Or.inl h)
    · exact h1.zero a (Or.inr h)
  · have := h1.loc b hb
    exact ⟨fun h => List.mem_cons_of_mem _ (this.1 h), this.2⟩

/-- An arena becomes a thread's private arena, emptied. -/
theorem take_inv {s : St} (hi : Inv s) (t f : Nat) (p : PC) (maps' : Nat) (free' : List Nat) (l : Option Nat)
    (hp : p.held = some f) (hpt : p.target = none) (hold : (s.pc t).held = none)
    (hsub : ∀ a ∈ free', a ∈ s.free) (hnod : (s.next ++ (s.cur ++ (s.prev ++ free'))).Nodup)
    (hout : f ∉ s.next ++ (s.cur ++ (s.prev ++ free'))) (hnh : ∀ t', (s.pc t').held ≠ some f)
    (hm : s.maps ≤ maps') (hf : f < maps') :
    Inv { s with free := free', maps := maps', lock := l, fi := upd s.fi f 0, mem := upd s.mem f (fun _ => 0),
                 pc := upd s.pc t p } := by
  have hsub2 : ∀ a ∈ s.next ++ (s.cur ++ (s.prev ++ free')), a ∈ Lists s := by
    intro a ha
    simp only [Lists, List.mem_append] at ha ⊢
    rcases ha with h | h | h | h
    · exact Or.inl h
    · exact Or.inr (Or.inl h)
    · exact Or.inr (Or.inr (Or.inl h))
    · exact Or.inr (Or.inr (Or.inr (hsub a h)))
  have hout' : f ∉ s.next ∧ f ∉ s.cur ∧ f ∉ s.prev ∧ f ∉ free' := by
    simp only [List.mem_append, not_or] at hout
    exact ⟨hout.1, hout.2.1, hout.2.2.1, hout.2.2.2⟩
  have key : ∀ t' g, (upd s.pc t p t').held = some g → (t' = t ∧ g = f) ∨ (t' ≠ t ∧ (s.pc t').held = some g ∧ g ≠ f) := by
    intro t' g h
    by_cases e : t' = t
    · subst e
      rw [upd_same, hp] at h
      cases h; exact Or.inl ⟨rfl, rfl⟩
    · rw [upd_ne _ _ e] at h
      refine Or.inr ⟨e, h, ?_⟩
      intro e2; subst e2; exact hnh t' h
  refine ⟨hnod, fun a ha => Nat.lt_of_lt_of_le (hi.lists_lt a (hsub2 a ha)) hm, fun t' g h => ?_, fun t' g h => ?_,
    fun t1 t2 g h1 h2 => ?_, fun t' ph a h => ?_, fun t' g h => ?_, fun a h i hx => ?_, hi.age, hi.loc,
    fun b hb hage => ?_, hi.size, hi.pair, fun x => ?_, hi.balign⟩
  · rcases key t' g h with ⟨_, rfl⟩ | ⟨_, h, _⟩
    · exact hf
    · exact Nat.lt_of_lt_of_le (hi.held_lt t' g h) hm
  · rcases key t' g h with ⟨_, rfl⟩ | ⟨_, h, _⟩
    · exact hout
    · exact fun hg => hi.held_out t' g h (hsub2 g hg)
  · rcases key t1 g h1 with ⟨e1, e2⟩ | ⟨e1, h1, e2⟩ <;> rcases key t2 g h2 with ⟨e3, e4⟩ | ⟨e3, h2, e4⟩
    · rw [e1, e3]
    · exact absurd e2 e4
    · exact absurd e4 e2
    · exact hi.held_inj t1 t2 g h1 h2
  · by_cases e : t' = t
    · subst e
      simp only [upd_same] at h
      rw [hpt] at h; cases h
    · simp only [upd_ne _ _ e] at h
      exact hi.target t' ph a h
  · rcases key t' g h with ⟨_, rfl⟩ | ⟨_, h, hne⟩
    · simp
    · simp only [upd_ne _ _ hne]; exact hi.held_fi t' g h
  · by_cases e : a = f
    · subst e; simp
    · simp only [upd_ne _ _ e] at hx ⊢
      apply hi.zero a _ i hx
      rcases h with h | ⟨t', h⟩
      · exact Or.inl h
      · rcases key t' a h with ⟨_, h⟩ | ⟨_, h, _⟩
        · exact absurd h e
        · exact Or.inr ⟨t', h⟩
  · have hl := hi.loc b hb
    have hne : b.arena ≠ f := by
      intro e
      have hage2 := hi.age b hb
      simp only at hage
      have : s.epoch = b.epoch ∨ s.epoch = b.epoch + 1 ∨ s.epoch = b.epoch + 2 := by omega
      rcases this with h | h | h
      · exact hout'.1 (e ▸ hl.1 h)
      · exact hout'.2.1 (e ▸ hl.2.1 h)
      · exact hout'.2.2.1 (e ▸ hl.2.2 h)
    simp only [upd_ne _ _ hne]
    exact hi.bound b hb hage
  · by_cases e : x = f
    · subst e; simp
    · simp only [upd_ne _ _ e]; exact hi.align x

theorem tstep_inv {s s' : St} (hi : Inv s) {t : Nat} (h : tstep s t = some s') : Inv s' := by
  rw [tstep] at h
  split at h
  · cases h
  · cases h
  · -- read
    rename_i ph n hpc
    have hh : ∀ x, (PC.load ph n x).held = (s.pc t).held := by intro x; rw [hpc]; rfl
    cases ph with
    | onFresh f =>
      simp only at h; cases h
      exact setPc_inv hi t _ s.lock (Or.inr (hh _)) (by rintro _ _ h; cases h; exact Or.inr rfl)
    | first =>
      simp only at h; cases h
      refine setPc_inv hi t _ s.lock (Or.inr (hh _)) ?_
      intro ph a h
      cases hn : s.next with
      | nil => rw [hn] at h; cases h
      | cons x l => rw [hn] at h; cases h; exact Or.inl ⟨List.mem_cons_self, by intro f h; cases h⟩
    | locked =>
      simp only at h; cases h
      refine setPc_inv hi t _ s.lock (Or.inr (hh _)) ?_
      intro ph a h
      cases hn : s.next with
      | nil => rw [hn] at h; cases h
      | cons x l => rw [hn] at h; cases h; exact Or.inl ⟨List.mem_cons_self, by intro f h; cases h⟩
    | again f =>
      simp only at h; cases h
      refine setPc_inv hi t _ s.lock (Or.inr (hh _)) ?_
      intro ph a h
      cases hn : s.next with
      | nil => rw [hn] at h; cases h
      | cons x l => rw [hn] at h; cases h; exact Or.inl ⟨List.mem_cons_self, by intro f h; cases h⟩
  · -- load
    rename_i ph n a hpc
    have hheld : (s.pc t).held = ph.held := by rw [hpc]; rfl
    cases a with
    | none =>
      simp only at h; cases h
      exact fail_inv hi t ph n hheld
    | some a =>
      simp only at h
      by_cases hc : s.fi a + bytesNeeded n > payload
      · rw [if_pos hc] at h; cases h
        exact fail_inv hi t ph n hheld
      · rw [if_neg hc] at h; cases h
        refine setPc_inv hi t _ s.lock (Or.inr hheld.symm) ?_
        rintro ph' a' h'
        cases h'
        exact hi.target t ph a (by rw [hpc]; rfl)
  · -- add
    rename_i ph n a hpc
    have hheld : (s.pc t).held = ph.held := by rw [hpc]; rfl
    have htgt := hi.target t ph a (by rw [hpc]; rfl)
    simp only at h
    by_cases hc : s.fi a + bytesNeeded n > payload
    · rw [if_pos hc] at h; cases h
      rcases htgt with ⟨htgt, _⟩ | rfl
      · have hnot : ∀ t, (s.pc t).held ≠ some a := fun t h => hi.held_out t a h (mem_lists_next htgt)
        exact fail_inv (raise_inv hi a _ (bytes_mod n) hnot) t ph n hheld
      · -- the assertion fails
        have h1 := setPc_inv hi t (PC.aborted n) s.lock (Or.inl rfl) (by intro _ _ h; cases h)
        have hno : ∀ t', ((upd s.pc t (PC.aborted n)) t').held ≠ some a := by
          intro t' h
          by_cases e : t' = t
          · subst e; rw [upd_same] at h; cases h
          · rw [upd_ne _ _ e] at h
            exact e (hi.held_inj t' t a h hheld)
        exact raise_inv h1 a (bytesNeeded n) (bytes_mod n) hno
    · rw [if_neg hc] at h; cases h
      have hle : s.fi a + bytesNeeded n ≤ payload := Nat.le_of_not_lt hc
      cases ph with
      | first =>
        rcases htgt with ⟨htgt, _⟩ | h'
        · exact grant_inv hi t a n s.lock htgt hle
        · cases h'
      | locked =>
        rcases htgt with ⟨htgt, _⟩ | h'
        · exact grant_inv hi t a n none htgt hle
        · cases h'
      | again f =>
        rcases htgt with ⟨htgt, _⟩ | h'
        · have hf : f ∉ Lists s := hi.held_out t f hheld
          -- give back first, then grant
          have h1 := giveBack_inv hi t f none hheld
          have h2 := grant_inv h1 t a n none htgt hle
          have e : upd (upd s.pc t PC.idle) t PC.idle = upd s.pc t PC.idle := by
            funext x; simp only [upd]; split <;> rfl
          simp only [e] at h2
          exact h2
        · cases h'
      | onFresh f =>
        have hfa : f = a := by
          rcases htgt with ⟨_, h'⟩ | h'
          · exact absurd rfl (h' f)
          · cases h'; rfl
        subst hfa
        have h1 := publish_inv hi t f hheld
        have h2 := grant_inv h1 t f n none List.mem_cons_self hle
        have e : upd (upd s.pc t PC.idle) t PC.idle = upd s.pc t PC.idle := by
          funext x; simp only [upd]; split <;> rfl
        simp only [e] at h2
        exact h2
  · -- lock
    rename_i n hpc
    by_cases hc : s.lock = none
    · rw [if_pos hc] at h; cases h
      exact setPc_inv hi t _ (some t) (Or.inl rfl) (by intro _ _ h; cases h)
    · rw [if_neg hc] at h; cases h
  · -- arenaNew
    rename_i n hpc
    have hold : (s.pc t).held = none := by rw [hpc]; rfl
    cases hfree : s.free with
    | nil =>
      rw [hfree] at h; simp only at h; cases h
      have := setPc_inv hi t (PC.map n) none (Or.inl rfl) (by intro _ _ h; cases h)
      simpa [hfree] using this
    | cons f rest =>
      rw [hfree] at h; simp only at h; cases h
      have hnod := hi.nodup
      have hperm : (Lists s).Perm (f :: (s.next ++ (s.cur ++ (s.prev ++ rest)))) := by
        have : Lists s = (s.next ++ (s.cur ++ s.prev)) ++ f :: rest := by simp [Lists, hfree]
        rw [this]
        refine List.perm_middle.trans ?_
        simp
      rw [hperm.nodup_iff, List.nodup_cons] at hnod
      have hin : f ∈ Lists s := hperm.mem_iff.mpr List.mem_cons_self
      have := take_inv hi t f (.read (.again f) n) s.maps rest s.lock rfl rfl hold
        (by rw [hfree]; intro a ha; exact List.mem_cons_of_mem _ ha) hnod.2 hnod.1
        (fun t' h => hi.held_out t' f h hin) (Nat.le_refl _) (hi.lists_lt f hin)
      exact this
  · -- map
    rename_i n hpc
    have hold : (s.pc t).held = none := by rw [hpc]; rfl
    cases h
    have := take_inv hi t s.maps (.relock n s.maps) (s.maps + 1) s.free s.lock rfl rfl hold
      (fun a h => h) hi.nodup (fun h => Nat.lt_irrefl _ (hi.lists_lt _ h))
      (fun t' h => Nat.lt_irrefl _ (hi.held_lt t' _ h)) (by omega) (by omega)
    exact this
  · -- relock
    rename_i n f hpc
    by_cases hc : s.lock = none
    · rw [if_pos hc] at h; cases h
      exact setPc_inv hi t _ (some t) (Or.inr (by rw [hpc]; rfl)) (by intro _ _ h; cases h)
    · rw [if_neg hc] at h; cases h

theorem epoch_inv {s : St} (hi : Inv s) (h : ∀ t, s.pc t = PC.idle) : Inv (epochStep s) := by
  have hperm : (([] : List Nat) ++ (s.next ++ (s.cur ++ (s.prev ++ s.free)))) = Lists s := rfl
  have hnone : ∀ t f, (s.pc t).held ≠ some f := by
    intro t f h'; rw [h t] at h'; cases h'
  refine ⟨hi.nodup, hi.lists_lt, hi.held_lt, hi.held_out, hi.held_inj, fun t ph a h' => ?_, hi.held_fi,
    fun a h' => ?_, fun b hb => ?_, fun b hb => ?_, fun b hb hage => ?_, hi.size, hi.pair, hi.align, hi.balign⟩
  · simp only [epochStep] at h'; rw [h t] at h'; cases h'
  · rcases h' with h' | ⟨t, h'⟩
    · simp [epochStep] at h'
    · exact absurd h' (hnone t a)
  · have := hi.age b hb; simp only [epochStep]; omega
  · have := hi.age b hb
    have hl := hi.loc b hb
    simp only [epochStep]
    exact ⟨fun h => by omega, fun h => hl.1 (by omega), fun h => hl.2.1 (by omega)⟩
  · simp only [epochStep] at hage ⊢
    exact hi.bound b hb (by omega)

theorem write_inv {s : St} (hi : Inv s) (b : Block) (i v : Nat) (hb : b ∈ s.blocks) (ha : s.epoch ≤ b.epoch + 2)
    (hlt : i < b.len) : Inv { s with mem := upd s.mem b.arena (upd (s.mem b.arena) (b.start + i) v) } := by
  refine ⟨hi.nodup, hi.lists_lt, hi.held_lt, hi.held_out, hi.held_inj, hi.target, hi.held_fi, fun a h j hj => ?_,
    hi.age, hi.loc, hi.bound, hi.size, hi.pair, hi.align, hi.balign⟩
  have hz := hi.zero a h j hj
  have hbd := hi.bound b hb ha
  by_cases e : a = b.arena
  · subst e
    have hj : s.fi b.arena ≤ j := hj
    simp only [upd_same]
    rw [upd_ne _ _ (by omega)]; exact hz
  · simp only [upd_ne _ _ e]; exact hz

theorem step_inv {s s' : St} (hi : Inv s) (h : Step s s') : Inv s' := by
  cases h with
  | call t n h => exact setPc_inv hi t _ s.lock (Or.inl rfl) (by intro _ _ h; cases h)
  | run _ t h => exact tstep_inv hi h
  | epoch h => exact epoch_inv hi h
  | write b i v hb ha hl => exact write_inv hi b i v hb ha hl

theorem reachable_inv {s : St} (h : Reachable s) : Inv s := by
  induction h with
  | init => exact init_inv
  | step s s' _ hs ih => exact step_inv ih hs

/-- What the success of an attempt leaves of the state. -/
theorem succeed_eq (s : St) (t : Nat) (ph : Phase) (b : Block) :
    (succeed s t ph b).blocks = b :: s.blocks ∧ (succeed s t ph b).mem = s.mem ∧
    (succeed s t ph b).pc = upd s.pc t PC.idle := by
  cases ph <;> exact ⟨rfl, rfl, rfl⟩

theorem fail_eq (s : St) (t : Nat) (ph : Phase) (n : Nat) : (fail s t ph n).blocks = s.blocks := by
  cases ph <;> rfl

/-- A new block is granted only by a successful fetch-and-add. -/
theorem grant_step {s s' : St} (hi : Inv s) {t : Nat} (h : tstep s t = some s') {b : Block}
    (hb : s'.blocks = b :: s.blocks) :
    b.epoch = s.epoch ∧ b.bits = (match s.pc t with | .add _ n _ => n | _ => 0) ∧
    ∀ i, i < b.len → s'.mem b.arena (b.start + i) = 0 := by
  have hne : ∀ (l : List Block), l ≠ b :: l := by
    intro l h
    have := congrArg List.length h
    simp at this
  rw [tstep] at h
  split at h
  · cases h
  · cases h
  · rename_i ph n hpc
    split at h <;> (cases h; exact absurd hb (hne _))
  · rename_i ph n a hpc
    cases a with
    | none => simp only at h; cases h; rw [fail_eq] at hb; exact absurd hb (hne _)
    | some a =>
      simp only at h
      split at h
      · cases h; rw [fail_eq] at hb; exact absurd hb (hne _)
      · cases h; exact absurd hb (hne _)
  · rename_i ph n a hpc
    have htgt := hi.target t ph a (by rw [hpc]; rfl)
    simp only at h
    split at h
    · cases h; rw [fail_eq] at hb; exact absurd hb (hne _)
    · cases h
      rw [(succeed_eq _ _ _ _).1] at hb
      simp only [List.cons.injEq, and_true] at hb
      subst hb
      rw [hpc, (succeed_eq _ _ _ _).2.1]
      refine ⟨rfl, rfl, fun i _ => ?_⟩
      apply hi.zero a _ _ (Nat.le_add_right _ _)
      rcases htgt with ⟨htgt, _⟩ | rfl
      · exact Or.inl htgt
      · exact Or.inr ⟨t, by rw [hpc]; rfl⟩
  · split at h
    · cases h; exact absurd hb (hne _)
    · cases h
  · split at h <;> (cases h; exact absurd hb (hne _))
  · cases h; exact absurd hb (hne _)
  · split at h
    · cases h; exact absurd hb (hne _)
    · cases h

/-- A thread is stopped by the assertion only for a request that fits in no arena, and an attempt on the fresh
arena is made on an arena. -/
def PcOk (p : PC) : Prop := ∀ n, (p = .aborted n → payload < bytesNeeded n) ∧ ∀ f, p ≠ .load (.onFresh f) n none

def AbortOk (s : St) : Prop := ∀ t, PcOk (s.pc t)

theorem abortOk_upd {s : St} (ha : AbortOk s) (t : Nat) (p : PC) (hp : PcOk p) : ∀ t', PcOk (upd s.pc t p t') := by
  intro t'
  by_cases e : t' = t
  · subst e; rw [upd_same]; exact hp
  · rw [upd_ne _ _ e]; exact ha t'

theorem abortOk_fail {s : St} (ha : AbortOk s) (t : Nat) (ph : Phase) (n : Nat)
    (hf : ∀ f, ph = .onFresh f → payload < bytesNeeded n) : AbortOk (fail s t ph n) := by
  cases ph with
  | onFresh f =>
    exact abortOk_upd ha t _ (fun m => ⟨(by intro h; cases h; exact hf f rfl), (by intro f h; cases h)⟩)
  | _ => exact abortOk_upd ha t _ (fun m => ⟨(by intro h; cases h), (by intro f h; cases h)⟩)

theorem abort_step {s s' : St} (hi : Inv s) (ha : AbortOk s) (h : Step s s') : AbortOk s' := by
  cases h with
  | call t n h => exact abortOk_upd ha t _ (fun m => ⟨(by intro h; cases h), (by intro f h; cases h)⟩)
  | epoch h => exact ha
  | write b i v hb hage hl => exact ha
  | run _ t h =>
    rw [tstep] at h
    split at h
    · cases h
    · cases h
    · rename_i ph n hpc
      cases ph <;>
        (simp only at h; cases h; exact abortOk_upd ha t _ (fun m => ⟨(by intro h; cases h), (by intro f h; cases h)⟩))
    · rename_i ph n a hpc
      cases a with
      | none =>
        simp only at h; cases h
        apply abortOk_fail ha
        rintro f rfl
        exact absurd hpc ((ha t n).2 f)
      | some a =>
        simp only at h
        split at h
        · rename_i hc
          cases h
          apply abortOk_fail ha
          rintro f rfl
          have htgt := hi.target t (.onFresh f) a (by rw [hpc]; rfl)
          have hfa : f = a := by
            rcases htgt with ⟨_, h'⟩ | h'
            · exact absurd rfl (h' f)
            · cases h'; rfl
          subst hfa
          rw [hi.held_fi t f (by rw [hpc]; rfl)] at hc
          omega
        · cases h; exact abortOk_upd ha t _ (fun m => ⟨(by intro h; cases h), (by intro f h; cases h)⟩)
    · rename_i ph n a hpc
      simp only at h
      split at h
      · rename_i hc
        cases h
        apply abortOk_fail (s := { s with fi := upd s.fi a (s.fi a + bytesNeeded n) }) ha
        rintro f rfl
        have htgt := hi.target t (.onFresh f) a (by rw [hpc]; rfl)
        have hfa : f = a := by
          rcases htgt with ⟨_, h'⟩ | h'
          · exact absurd rfl (h' f)
          · cases h'; rfl
        subst hfa
        rw [hi.held_fi t f (by rw [hpc]; rfl)] at hc
        omega
      · cases h
        intro t'
        rw [(succeed_eq _ _ _ _).2.2]
        exact abortOk_upd ha t _ (fun m => ⟨(by intro h; cases h), (by intro f h; cases h)⟩) t'
    · split at h
      · cases h; exact abortOk_upd ha t _ (fun m => ⟨(by intro h; cases h), (by intro f h; cases h)⟩)
      · cases h
    · split at h <;> (cases h; exact abortOk_upd ha t _ (fun m => ⟨(by intro h; cases h), (by intro f h; cases h)⟩))
    · cases h; exact abortOk_upd ha t _ (fun m => ⟨(by intro h; cases h), (by intro f h; cases h)⟩)
    · split at h
      · cases h; exact abortOk_upd ha t _ (fun m => ⟨(by intro h; cases h), (by intro f h; cases h)⟩)
      · cases h

theorem reachable_abortOk {s : St} (h : Reachable s) : AbortOk s := by
  induction h with
  | init => intro t n; exact ⟨(by intro h; cases h), (by intro f h; cases h)⟩
  | step s s' hr hs ih => exact abort_step (reachable_inv hr) ih hs

end Nature.GcBits
