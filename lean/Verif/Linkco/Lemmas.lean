import Verif.Linkco.Spec
namespace Nature.Linkco

theorem upd_self {α} [DecidableEq α] {β} (f : α → β) (a : α) (b : β) : upd f a b a = b := by simp [upd]
theorem upd_ne {α} [DecidableEq α] {β} (f : α → β) (a : α) (b : β) (x : α) (h : x ≠ a) : upd f a b x = f x := by
  simp [upd, h]

/-- Two cells that agree in the fields the queues use. -/
def Eqv (x y : Lc) : Prop := x.prev = y.prev ∧ x.next = y.next ∧ x.co = y.co

theorem Eqv.rfl' {x : Lc} : Eqv x x := ⟨rfl, rfl, rfl⟩
theorem Eqv.trans {x y z : Lc} (h : Eqv x y) (h' : Eqv y z) : Eqv x z :=
  ⟨h.1.trans h'.1, h.2.1.trans h'.2.1, h.2.2.trans h'.2.2⟩

def hd (xs : List Nat) (z : Nat) : Nat := match xs with
  | [] => z
  | a :: _ => a

def lastOr : Nat → List Nat → Nat
  | p, [] => p
  | _, a :: xs => lastOr a xs

/-- Doubly linked. -/
def DL (m : Nat → Lc) : Nat → List Nat → Nat → Prop
  | _, [], _ => True
  | p, a :: xs, z => (m a).prev = p ∧ (m a).next = hd xs z ∧ DL m a xs z

/-- Singly linked, with `prev` NULL. -/
def SL (m : Nat → Lc) : List Nat → Nat → Prop
  | [], _ => True
  | a :: xs, z => (m a).prev = 0 ∧ (m a).next = hd xs z ∧ SL m xs z

theorem hd_append (xs ys : List Nat) (z : Nat) : hd (xs ++ ys) z = hd xs (hd ys z) := by cases xs <;> rfl

theorem lastOr_append (xs ys : List Nat) : ∀ p, lastOr p (xs ++ ys) = lastOr (lastOr p xs) ys := by
  induction xs with
  | nil => intro p; rfl
  | cons e xs ih => intro p; exact ih e

theorem lastOr_snoc (xs : List Nat) (a p : Nat) : lastOr p (xs ++ [a]) = a := by rw [lastOr_append]; rfl

theorem DL_append {m : Nat → Lc} (xs ys : List Nat) (z : Nat) : ∀ p,
    DL m p (xs ++ ys) z ↔ DL m p xs (hd ys z) ∧ DL m (lastOr p xs) ys z := by
  induction xs with
  | nil => intro p; simp [DL, lastOr]
  | cons e xs ih =>
    intro p
    simp only [List.cons_append, DL, lastOr, ih, hd_append, and_assoc]

theorem SL_append {m : Nat → Lc} (xs ys : List Nat) (z : Nat) :
    SL m (xs ++ ys) z ↔ SL m xs (hd ys z) ∧ SL m ys z := by
  induction xs with
  | nil => simp [SL]
  | cons e xs ih => simp only [List.cons_append, SL, ih, hd_append, and_assoc]

theorem DL_frame {m m' : Nat → Lc} {xs : List Nat} {z : Nat} : ∀ {p},
    (∀ a ∈ xs, Eqv (m' a) (m a)) → DL m p xs z → DL m' p xs z := by
  induction xs with
  | nil => intro _ _ _; exact True.intro
  | cons e xs ih =>
    intro p h d
    have he := h e (by simp)
    exact ⟨he.1.trans d.1, he.2.1.trans d.2.1, ih (fun a ha => h a (by simp [ha])) d.2.2⟩

theorem SL_frame {m m' : Nat → Lc} {xs : List Nat} {z : Nat}
    (h : ∀ a ∈ xs, (m' a).prev = (m a).prev ∧ (m' a).next = (m a).next) (d : SL m xs z) : SL m' xs z := by
  induction xs with
  | nil => exact True.intro
  | cons e xs ih =>
    have he := h e (by simp)
    exact ⟨he.1.trans d.1, he.2.trans d.2.1, ih (fun a ha => h a (by simp [ha])) d.2.2⟩

/-- Where a cell is. -/
inductive Place
  | free
  | out
  | cached (p : Nat)
  | glob
  | inq (i : QId)
deriving DecidableEq

structure Inv (s : St) (out : Nat → Prop) (own : Nat → Place) (gs : List Nat) (xs : QId → List Nat) : Prop where
  free : ∀ a, own a = .free ↔ s.live a = false
  zero : own 0 = .free
  out : ∀ a, out a ↔ own a = .out
  cache : ∀ p a, a ∈ s.cache p ↔ own a = .cached p
  cacheNd : ∀ p, (s.cache p).Nodup
  cacheLen : ∀ p, (s.cache p).length ≤ cacheMax
  cleanOut : ∀ a, own a = .out → (s.mem a).prev = 0 ∧ (s.mem a).next = 0
  cleanCache : ∀ a p, own a = .cached p → (s.mem a).prev = 0 ∧ (s.mem a).next = 0
  glob : ∀ a, a ∈ gs ↔ own a = .glob
  globNd : gs.Nodup
  globSL : SL s.mem gs 0
  globHd : s.global = hd gs 0
  q : ∀ i a, a ∈ xs i ↔ own a = .inq i
  qNd : ∀ i, (xs i).Nodup
  qDL : ∀ i, DL s.mem 0 (xs i) 0
  qHead : ∀ i, (s.q i).head = hd (xs i) 0
  qRear : ∀ i, (s.q i).rear = lastOr 0 (xs i)
  qCount : ∀ k, (s.q (.list k)).count = (xs (.list k)).length
  qCo : ∀ i, ∀ a ∈ xs i, (s.mem a).co ≠ 0

theorem Inv.ne0 {s out own gs xs} (I : Inv s out own gs xs) {a : Nat} (h : own a ≠ .free) : a ≠ 0 := by
  rintro rfl; exact h I.zero

theorem Inv.q_ne0 {s out own gs xs} (I : Inv s out own gs xs) {i a} (h : a ∈ xs i) : a ≠ 0 :=
  I.ne0 (by rw [(I.q i a).1 h]; simp)

/-- A change of queue `i` only, cells going between it and the callers. -/
theorem inv_queue {s s' : St} {out out' : Nat → Prop} {own own' gs xs} (I : Inv s out own gs xs) (i : QId)
    (ys : List Nat)
    (hc : s'.cache = s.cache) (hg : s'.global = s.global) (hl : s'.live = s.live)
    (ho : ∀ a, own' a = own a ∨ (own a = .out ∧ own' a = .inq i) ∨ (own a = .inq i ∧ own' a = .out))
    (hm : ∀ a, own a ≠ .free → own a ≠ .out → own a ≠ .inq i → Eqv (s'.mem a) (s.mem a))
    (hout : ∀ a, out' a ↔ own' a = .out)
    (hclean : ∀ a, own' a = .out → (s'.mem a).prev = 0 ∧ (s'.mem a).next = 0)
    (hmem : ∀ a, a ∈ ys ↔ own' a = .inq i) (hnd : ys.Nodup) (hdl : DL s'.mem 0 ys 0)
    (hhead : (s'.q i).head = hd ys 0) (hrear : (s'.q i).rear = lastOr 0 ys)
    (hcount : ∀ k, i = .list k → (s'.q i).count = ys.length)
    (hco : ∀ a ∈ ys, (s'.mem a).co ≠ 0)
    (hq : ∀ j, j ≠ i → s'.q j = s.q j) : Inv s' out' own' gs (upd xs i ys) := by
  have other : ∀ a, own a ≠ .out → own a ≠ .inq i → own' a = own a := by
    intro a h1 h2
    rcases ho a with h | h | h
    · exact h
    · exact absurd h.1 h1
    · exact absurd h.1 h2
  have back : ∀ a, own' a ≠ .out → own' a ≠ .inq i → own a = own' a := by
    intro a h1 h2
    rcases ho a with h | h | h
    · exact h.symm
    · exact absurd h.2 h2
    · exact absurd h.2 h1
  have iff : ∀ a (x : Place), x ≠ .out → x ≠ .inq i → (own' a = x ↔ own a = x) := by
    intro a x h1 h2
    constructor
    · intro h; rw [back a (by rw [h]; exact h1) (by rw [h]; exact h2)]; exact h
    · intro h; rw [other a (by rw [h]; exact h1) (by rw [h]; exact h2)]; exact h
  have hfr : ∀ j, j ≠ i → ∀ a ∈ xs j, Eqv (s'.mem a) (s.mem a) := by
    intro j hj a ha
    have := (I.q j a).1 ha
    exact hm a (by rw [this]; simp) (by rw [this]; simp) (by rw [this]; simpa using hj)
  constructor
  · intro a; rw [iff a _ (by simp) (by simp), hl]; exact I.free a
  · rw [iff 0 _ (by simp) (by simp)]; exact I.zero
  · exact hout
  · intro p a; rw [hc, iff a _ (by simp) (by simp)]; exact I.cache p a
  · intro p; rw [hc]; exact I.cacheNd p
  · intro p; rw [hc]; exact I.cacheLen p
  · exact hclean
  · intro a p h
    have h' := (iff a _ (by simp) (by simp)).1 h
    have e := hm a (by rw [h']; simp) (by rw [h']; simp) (by rw [h']; simp)
    rw [e.1, e.2.1]
    exact I.cleanCache a p h'
  · intro a; rw [iff a _ (by simp) (by simp)]; exact I.glob a
  · exact I.globNd
  · refine SL_frame (fun a ha => ?_) I.globSL
    have h' := (I.glob a).1 ha
    have e := hm a (by rw [h']; simp) (by rw [h']; simp) (by rw [h']; simp)
    exact ⟨e.1, e.2.1⟩
  · rw [hg]; exact I.globHd
  · intro j a
    by_cases hj : j = i
    · subst hj; rw [upd_self]; exact hmem a
    · rw [upd_ne _ _ _ _ hj, iff a _ (by simp) (by simpa using hj)]; exact I.q j a
  · intro j
    by_cases hj : j = i
    · subst hj; rw [upd_self]; exact hnd
    · rw [upd_ne _ _ _ _ hj]; exact I.qNd j
  · intro j
    by_cases hj : j = i
    · subst hj; rw [upd_self]; exact hdl
    · rw [upd_ne _ _ _ _ hj]; exact DL_frame (hfr j hj) (I.qDL j)
  · intro j
    by_cases hj : j = i
    · subst hj; rw [upd_self]; exact hhead
    · rw [upd_ne _ _ _ _ hj, hq j hj]; exact I.qHead j
  · intro j
    by_cases hj : j = i
    · subst hj; rw [upd_self]; exact hrear
    · rw [upd_ne _ _ _ _ hj, hq j hj]; exact I.qRear j
  · intro k
    by_cases hj : QId.list k = i
    · subst hj; rw [upd_self]; exact hcount k rfl
    · rw [upd_ne _ _ _ _ hj, hq _ hj]; exact I.qCount k
  · intro j a ha
    by_cases hj : j = i
    · subst hj; rw [upd_self] at ha; exact hco a ha
    · rw [upd_ne _ _ _ _ hj] at ha; rw [(hfr j hj a ha).2.2]; exact I.qCo j a ha

/-- A change of the caches only: nothing moves into or out of a queue. -/
theorem inv_cache {s s' : St} {out out' : Nat → Prop} {own own' gs gs' xs} (I : Inv s out own gs xs)
    (hq : s'.q = s.q)
    (ho : ∀ i a, own' a = .inq i ↔ own a = .inq i)
    (hm : ∀ i a, own a = .inq i → Eqv (s'.mem a) (s.mem a))
    (hfree : ∀ a, own' a = .free ↔ s'.live a = false) (hz : own' 0 = .free)
    (hout : ∀ a, out' a ↔ own' a = .out)
    (hcache : ∀ p a, a ∈ s'.cache p ↔ own' a = .cached p) (hnd : ∀ p, (s'.cache p).Nodup)
    (hlen : ∀ p, (s'.cache p).length ≤ cacheMax)
    (hco : ∀ a, own' a = .out → (s'.mem a).prev = 0 ∧ (s'.mem a).next = 0)
    (hcc : ∀ a p, own' a = .cached p → (s'.mem a).prev = 0 ∧ (s'.mem a).next = 0)
    (hgl : ∀ a, a ∈ gs' ↔ own' a = .glob) (hgn : gs'.Nodup) (hgs : SL s'.mem gs' 0) (hgh : s'.global = hd gs' 0) :
    Inv s' out' own' gs' xs := by
  have hfr : ∀ i, ∀ a ∈ xs i, Eqv (s'.mem a) (s.mem a) := fun i a ha => hm i a ((I.q i a).1 ha)
  constructor
  · exact hfree
  · exact hz
  · exact hout
  · exact hcache
  · exact hnd
  · exact hlen
  · exact hco
  · exact hcc
  · exact hgl
  · exact hgn
  · exact hgs
  · exact hgh
  · intro i a; rw [ho]; exact I.q i a
  · exact I.qNd
  · intro i; exact DL_frame (hfr i) (I.qDL i)
  · intro i; rw [hq]; exact I.qHead i
  · intro i; rw [hq]; exact I.qRear i
  · intro k; rw [hq]; exact I.qCount k
  · intro i a ha; rw [(hfr i a ha).2.2]; exact I.qCo i a ha

/-- What acquiring and releasing cells leave alone. -/
structure Frame (s s' : St) (own : Nat → Place) : Prop where
  q : s'.q = s.q
  done : s'.done = s.done
  mem : ∀ i a, own a = .inq i → s'.mem a = s.mem a

/-- One round of borrowing. -/
theorem borrow_one {s out own gs xs} (I : Inv s out own gs xs) (p g : Nat) (gs1 : List Nat) (hgs : gs = g :: gs1)
    (hlen : (s.cache p).length < cacheMax) :
    Inv (setCache (setNext { s with global := (s.mem g).next } g 0) p (g :: s.cache p)) out
      (upd own g (.cached p)) gs1 xs := by
  subst hgs
  have hg : own g = .glob := (I.glob g).1 (by simp)
  have hng : g ∉ gs1 := (List.nodup_cons.1 I.globNd).1
  have hne : ∀ a, own a ≠ .glob → a ≠ g := fun a h e => h (e ▸ hg)
  have hsl := I.globSL
  refine inv_cache I rfl ?_ ?_ ?_ ?_ ?_ ?_ ?_ ?_ ?_ ?_ ?_ ?_ ?_ ?_
  · intro i a
    by_cases h : a = g
    · subst h; simp [upd_self, hg]
    · rw [upd_ne _ _ _ _ h]
  · intro i a h
    have : a ≠ g := hne a (by rw [h]; simp)
    simp only [setCache, setNext, upd_ne _ _ _ _ this]
    exact Eqv.rfl'
  · intro a
    by_cases h : a = g
    · subst h
      rw [upd_self]
      have := I.free a
      rw [hg] at this
      show Place.cached p = .free ↔ s.live a = false
      constructor
      · intro h; cases h
      · intro h; exact absurd (this.2 h) (by simp)
    · rw [upd_ne _ _ _ _ h]; exact I.free a
  · rw [upd_ne _ _ _ _ (Ne.symm (I.ne0 (by rw [hg]; simp)))]; exact I.zero
  · intro a
    by_cases h : a = g
    · subst h; rw [upd_self, I.out, hg]; simp
    · rw [upd_ne _ _ _ _ h]; exact I.out a
  · intro p' a
    show a ∈ upd s.cache p (g :: s.cache p) p' ↔ _
    by_cases hp : p' = p
    · subst hp
      rw [upd_self, List.mem_cons, I.cache]
      by_cases h : a = g
      · subst h; simp [upd_self]
      · rw [upd_ne _ _ _ _ h]; simp [h]
    · rw [upd_ne _ _ _ _ hp, I.cache]
      by_cases h : a = g
      · subst h; simp [upd_self, hg, Ne.symm hp]
      · rw [upd_ne _ _ _ _ h]
  · intro p'
    show (upd s.cache p (g :: s.cache p) p').Nodup
    by_cases hp : p' = p
    · subst hp
      rw [upd_self, List.nodup_cons]
      exact ⟨fun h => by rw [I.cache, hg] at h; simp at h, I.cacheNd _⟩
    · rw [upd_ne _ _ _ _ hp]; exact I.cacheNd _
  · intro p'
    show (upd s.cache p (g :: s.cache p) p').length ≤ _
    by_cases hp : p' = p
    · subst hp; rw [upd_self, List.length_cons]; omega
    · rw [upd_ne _ _ _ _ hp]; exact I.cacheLen _
  · intro a ha
    have h : a ≠ g := by rintro rfl; rw [upd_self] at ha; cases ha
    rw [upd_ne _ _ _ _ h] at ha
    simp only [setCache, setNext, upd_ne _ _ _ _ h]
    exact I.cleanOut a ha
  · intro a p' ha
    by_cases h : a = g
    · subst h
      simp only [setCache, setNext, upd_self]
      exact ⟨hsl.1, trivial⟩
    · rw [upd_ne _ _ _ _ h] at ha
      simp only [setCache, setNext, upd_ne _ _ _ _ h]
      exact I.cleanCache a p' ha
  · intro a
    by_cases h : a = g
    · subst h; rw [upd_self]; simp [hng]
    · rw [upd_ne _ _ _ _ h, ← I.glob]; simp [h]
  · exact (List.nodup_cons.1 I.globNd).2
  · refine SL_frame (fun a ha => ?_) hsl.2.2
    have h : a ≠ g := fun e => hng (e ▸ ha)
    simp only [setCache, setNext, upd_ne _ _ _ _ h]
    exact ⟨trivial, trivial⟩
  · exact hsl.2.1

theorem borrow_inv (p : Nat) : ∀ n {s out own gs xs}, Inv s out own gs xs → (s.cache p).length + n ≤ cacheMax →
    ∃ own' gs', Inv (borrow p n s) out own' gs' xs ∧ Frame s (borrow p n s) own ∧
      (borrow p n s).live = s.live ∧ (∀ i a, own' a = .inq i ↔ own a = .inq i) := by
  intro n
  induction n with
  | zero => intro s out own gs xs I _; exact ⟨own, gs, I, ⟨rfl, rfl, fun _ _ _ => rfl⟩, rfl, fun _ _ => Iff.rfl⟩
  | succ n ih =>
    intro s out own gs xs I hlen
    rw [borrow]
    by_cases hg : s.global = 0
    · rw [if_pos hg]; exact ⟨own, gs, I, ⟨rfl, rfl, fun _ _ _ => rfl⟩, rfl, fun _ _ => Iff.rfl⟩
    · rw [if_neg hg]
      cases gs with
      | nil => exact absurd I.globHd hg
      | cons g gs1 =>
        have hh : s.global = g := I.globHd
        have I1 := borrow_one I p g gs1 rfl (by omega)
        have hown : own g = .glob := (I.glob g).1 (by simp)
        simp only [hh]
        obtain ⟨own', gs', I2, F2, hl2, ho2⟩ := ih I1 (by
          show (upd s.cache p (g :: s.cache p) p).length + n ≤ _
          rw [upd_self, List.length_cons]; omega)
        have ho : ∀ i a, upd own g (.cached p) a = .inq i ↔ own a = .inq i := by
          intro i a
          by_cases h : a = g
          · subst h; simp [upd_self, hown]
          · rw [upd_ne _ _ _ _ h]
        refine ⟨own', gs', I2, ⟨F2.q.trans rfl, F2.done.trans rfl, fun i a h => ?_⟩, hl2.trans rfl, fun i a => ?_⟩
        · have hne : a ≠ g := by rintro rfl; rw [hown] at h; cases h
          refine (F2.mem i a ((ho i a).2 h)).trans ?_
          simp only [setCache, setNext, upd_ne _ _ _ _ hne]
        · rw [ho2, ho]

theorem fresh_inv {s out own gs xs} (I : Inv s out own gs xs) (p a : Nat) (ha : a ≠ 0) (hl : s.live a = false)
    (hlen : (s.cache p).length < cacheMax) :
    Inv (fresh s p a) out (upd own a (.cached p)) gs xs := by
  have hf : own a = .free := (I.free a).2 hl
  have hne : ∀ x, own x ≠ .free → x ≠ a := fun x h e => h (e ▸ hf)
  refine inv_cache I rfl ?_ ?_ ?_ ?_ ?_ ?_ ?_ ?_ ?_ ?_ ?_ I.globNd ?_ I.globHd
  · intro i x
    by_cases h : x = a
    · subst h; simp [upd_self, hf]
    · rw [upd_ne _ _ _ _ h]
  · intro i x h
    have : x ≠ a := hne x (by rw [h]; simp)
    simp only [fresh, setCache, upd_ne _ _ _ _ this]
    exact Eqv.rfl'
  · intro x
    show upd own a (.cached p) x = .free ↔ upd s.live a true x = false
    by_cases h : x = a
    · subst h; simp [upd_self]
    · rw [upd_ne _ _ _ _ h, upd_ne _ _ _ _ h]; exact I.free x
  · rw [upd_ne _ _ _ _ (Ne.symm ha)]; exact I.zero
  · intro x
    by_cases h : x = a
    · subst h; rw [upd_self, I.out, hf]; simp
    · rw [upd_ne _ _ _ _ h]; exact I.out x
  · intro p' x
    show x ∈ upd s.cache p (a :: s.cache p) p' ↔ _
    by_cases hp : p' = p
    · subst hp
      rw [upd_self, List.mem_cons, I.cache]
      by_cases h : x = a
      · subst h; simp [upd_self]
      · rw [upd_ne _ _ _ _ h]; simp [h]
    · rw [upd_ne _ _ _ _ hp, I.cache]
      by_cases h : x = a
      · subst h; simp [upd_self, hf, Ne.symm hp]
      · rw [upd_ne _ _ _ _ h]
  · intro p'
    show (upd s.cache p (a :: s.cache p) p').Nodup
    by_cases hp : p' = p
    · subst hp
      rw [upd_self, List.nodup_cons]
      exact ⟨fun h => by rw [I.cache, hf] at h; simp at h, I.cacheNd _⟩
    · rw [upd_ne _ _ _ _ hp]; exact I.cacheNd _
  · intro p'
    show (upd s.cache p (a :: s.cache p) p').length ≤ _
    by_cases hp : p' = p
    · subst hp; rw [upd_self, List.length_cons]; omega
    · rw [upd_ne _ _ _ _ hp]; exact I.cacheLen _
  · intro x hx
    have h : x ≠ a := by rintro rfl; rw [upd_self] at hx; cases hx
    rw [upd_ne _ _ _ _ h] at hx
    simp only [fresh, setCache, upd_ne _ _ _ _ h]
    exact I.cleanOut x hx
  · intro x p' hx
    by_cases h : x = a
    · subst h
      simp only [fresh, setCache, upd_self]
      exact ⟨trivial, trivial⟩
    · rw [upd_ne _ _ _ _ h] at hx
      simp only [fresh, setCache, upd_ne _ _ _ _ h]
      exact I.cleanCache x p' hx
  · intro x
    by_cases h : x = a
    · subst h
      have := I.glob x
      rw [upd_self]
      rw [hf] at this
      simpa using this
    · rw [upd_ne _ _ _ _ h]; exact I.glob x
  · refine SL_frame (fun x hx => ?_) I.globSL
    have h : x ≠ a := hne x (by rw [(I.glob x).1 hx]; simp)
    simp only [fresh, setCache, upd_ne _ _ _ _ h]
    exact ⟨trivial, trivial⟩

/-- Taking the last cell of a cache. -/
theorem take_inv {s out own gs xs} (I : Inv s out own gs xs) (p b : Nat) (bs : List Nat) (hc : s.cache p = b :: bs) :
    Inv (setCache s p bs) (fun x => x = b ∨ out x) (upd own b .out) gs xs := by
  have hb : own b = .cached p := (I.cache p b).1 (by rw [hc]; simp)
  have hnb : b ∉ bs := by have := I.cacheNd p; rw [hc] at this; exact (List.nodup_cons.1 this).1
  refine inv_cache I rfl ?_ (fun _ _ _ => Eqv.rfl') ?_ ?_ ?_ ?_ ?_ ?_ ?_ ?_ ?_ I.globNd I.globSL I.globHd
  · intro i x
    by_cases h : x = b
    · subst h; simp [upd_self, hb]
    · rw [upd_ne _ _ _ _ h]
  · intro x
    by_cases h : x = b
    · subst h
      have := I.free x
      rw [hb] at this
      rw [upd_self]
      show Place.out = .free ↔ s.live x = false
      constructor
      · intro h; cases h
      · intro h; exact absurd (this.2 h) (by simp)
    · rw [upd_ne _ _ _ _ h]; exact I.free x
  · rw [upd_ne _ _ _ _ (Ne.symm (I.ne0 (by rw [hb]; simp)))]; exact I.zero
  · intro x
    by_cases h : x = b
    · subst h; simp [upd_self]
    · rw [upd_ne _ _ _ _ h, ← I.out]; simp [h]
  · intro p' x
    show x ∈ upd s.cache p bs p' ↔ _
    by_cases hp : p' = p
    · subst hp
      rw [upd_self]
      have hx := I.cache p' x
      rw [hc, List.mem_cons] at hx
      by_cases h : x = b
      · subst h; simp [upd_self, hnb]
      · rw [upd_ne _ _ _ _ h, ← hx]; simp [h]
    · rw [upd_ne _ _ _ _ hp, I.cache]
      by_cases h : x = b
      · subst h; simp [upd_self, hb, Ne.symm hp]
      · rw [upd_ne _ _ _ _ h]
  · intro p'
    show (upd s.cache p bs p').Nodup
    by_cases hp : p' = p
    · subst hp
      rw [upd_self]
      have := I.cacheNd p'; rw [hc] at this; exact (List.nodup_cons.1 this).2
    · rw [upd_ne _ _ _ _ hp]; exact I.cacheNd _
  · intro p'
    show (upd s.cache p bs p').length ≤ _
    by_cases hp : p' = p
    · subst hp
      rw [upd_self]
      have := I.cacheLen p'; rw [hc, List.length_cons] at this; omega
    · rw [upd_ne _ _ _ _ hp]; exact I.cacheLen _
  · intro x hx
    by_cases h : x = b
    · subst h; exact I.cleanCache x p hb
    · rw [upd_ne _ _ _ _ h] at hx; exact I.cleanOut x hx
  · intro x p' hx
    have h : x ≠ b := by rintro rfl; rw [upd_self] at hx; cases hx
    rw [upd_ne _ _ _ _ h] at hx
    exact I.cleanCache x p' hx
  · intro x
    by_cases h : x = b
    · subst h
      have := I.glob x
      rw [upd_self]
      rw [hb] at this
      simpa using this
    · rw [upd_ne _ _ _ _ h]; exact I.glob x

theorem acquire_inv {s out own gs xs} (I : Inv s out own gs xs) (p a : Nat) (ha : a ≠ 0) (hl : s.live a = false) :
    ∃ b s' own' gs', acquire s p a = some (b, s') ∧ Inv s' (fun x => x = b ∨ out x) own' gs' xs ∧ Frame s s' own ∧
      (∀ i, own b ≠ .inq i) ∧ ¬ out b ∧ b ≠ 0 ∧ (∀ i a, own' a = .inq i ↔ own a = .inq i) := by
  -- the state just before a cell is taken
  have key : ∃ s1 own1 gs1, (if s.cache p = [] then
      let s0 := borrow p (cacheMax / 2) s
      if s0.cache p = [] then fresh s0 p a else s0
    else s) = s1 ∧ Inv s1 out own1 gs1 xs ∧ Frame s s1 own ∧ s1.cache p ≠ [] ∧
      (∀ i a, own1 a = .inq i ↔ own a = .inq i) := by
    by_cases hc : s.cache p = []
    · obtain ⟨own0, gs0, I0, F0, hl0, ho0⟩ := borrow_inv p (cacheMax / 2) I (by rw [hc]; decide)
      by_cases hc0 : (borrow p (cacheMax / 2) s).cache p = []
      · refine ⟨fresh (borrow p (cacheMax / 2) s) p a, _, _, ?_, fresh_inv I0 p a ha (by rw [hl0]; exact hl) (by
          rw [hc0]; decide), ⟨F0.q, F0.done, fun i x h => ?_⟩, ?_, ?_⟩
        · simp only [hc, if_true, hc0]
        · rw [← F0.mem i x h]
          have hne : x ≠ a := by
            rintro rfl
            have := (I.free x).2 hl
            rw [this] at h; cases h
          simp only [fresh, setCache, upd_ne _ _ _ _ hne]
        · simp [fresh, setCache, upd_self]
        · intro i x
          by_cases h : x = a
          · subst h
            rw [upd_self, (I.free x).2 hl]
            simp
          · rw [upd_ne _ _ _ _ h]; exact ho0 i x
      · exact ⟨borrow p (cacheMax / 2) s, own0, gs0, by simp only [hc, if_true, hc0, if_false], I0, F0, hc0, ho0⟩
    · exact ⟨s, own, gs, by rw [if_neg hc], I, ⟨rfl, rfl, fun _ _ _ => rfl⟩, hc, fun _ _ => Iff.rfl⟩
  obtain ⟨s1, own1, gs1, e1, I1, F1, hne, ho1⟩ := key
  obtain ⟨b, bs, hb⟩ := List.exists_cons_of_ne_nil hne
  have hob : own1 b = .cached p := (I1.cache p b).1 (by rw [hb]; simp)
  have hcl := I1.cleanCache b p hob
  refine ⟨b, setCache s1 p bs, upd own1 b .out, gs1, ?_, take_inv I1 p b bs hb, ⟨F1.q, F1.done, F1.mem⟩, ?_, ?_, ?_, ?_⟩
  · unfold acquire
    rw [e1]
    simp only [hb, hcl.1, hcl.2]
    rfl
  · intro i h
    rw [(ho1 i b).2 h] at hob; cases hob
  · intro h
    rw [I1.out, hob] at h; cases h
  · exact I1.ne0 (by rw [hob]; simp)
  · intro i x
    by_cases h : x = b
    · subst h
      rw [upd_self]
      constructor
      · intro h; cases h
      · intro h; rw [(ho1 i x).2 h] at hob; cases hob
    · rw [upd_ne _ _ _ _ h]; exact ho1 i x

/-- A cell given back to a cache that has room. -/
theorem put_inv {s out own gs xs} (I : Inv s out own gs xs) (p b : Nat) (hb : own b = .out)
    (hlen : (s.cache p).length < cacheMax) :
    Inv (setCache s p (b :: s.cache p)) (fun x => x ≠ b ∧ out x) (upd own b (.cached p)) gs xs := by
  refine inv_cache I rfl ?_ (fun _ _ _ => Eqv.rfl') ?_ ?_ ?_ ?_ ?_ ?_ ?_ ?_ ?_ I.globNd I.globSL I.globHd
  · intro i x
    by_cases h : x = b
    · subst h; simp [upd_self, hb]
    · rw [upd_ne _ _ _ _ h]
  · intro x
    by_cases h : x = b
    · subst h
      have := I.free x
      rw [hb] at this
      rw [upd_self]
      show Place.cached p = .free ↔ s.live x = false
      constructor
      · intro h; cases h
      · intro h; exact absurd (this.2 h) (by simp)
    · rw [upd_ne _ _ _ _ h]; exact I.free x
  · rw [upd_ne _ _ _ _ (Ne.symm (I.ne0 (by rw [hb]; simp)))]; exact I.zero
  · intro x
    by_cases h : x = b
    · subst h; simp [upd_self]
    · rw [upd_ne _ _ _ _ h, ← I.out]; simp [h]
  · intro p' x
    show x ∈ upd s.cache p (b :: s.cache p) p' ↔ _
    by_cases hp : p' = p
    · subst hp
      rw [upd_self, List.mem_cons, I.cache]
      by_cases h : x = b
      · subst h; simp [upd_self]
      · rw [upd_ne _ _ _ _ h]; simp [h]
    · rw [upd_ne _ _ _ _ hp, I.cache]
      by_cases h : x = b
      · subst h; simp [upd_self, hb, Ne.symm hp]
      · rw [upd_ne _ _ _ _ h]
  · intro p'
    show (upd s.cache p (b :: s.cache p) p').Nodup
    by_cases hp : p' = p
    · subst hp
      rw [upd_self, List.nodup_cons]
      exact ⟨fun h => by rw [I.cache, hb] at h; simp at h, I.cacheNd _⟩
    · rw [upd_ne _ _ _ _ hp]; exact I.cacheNd _
  · intro p'
    show (upd s.cache p (b :: s.cache p) p').length ≤ _
    by_cases hp : p' = p
    · subst hp; rw [upd_self, List.length_cons]; omega
    · rw [upd_ne _ _ _ _ hp]; exact I.cacheLen _
  · intro x hx
    have h : x ≠ b := by rintro rfl; rw [upd_self] at hx; cases hx
    rw [upd_ne _ _ _ _ h] at hx; exact I.cleanOut x hx
  · intro x p' hx
    by_cases h : x = b
    · subst h; exact I.cleanOut x hb
    · rw [upd_ne _ _ _ _ h] at hx; exact I.cleanCache x p' hx
  · intro x
    by_cases h : x = b
    · subst h
      have := I.glob x
      rw [upd_self]
      rw [hb] at this
      simpa using this
    · rw [upd_ne _ _ _ _ h]; exact I.glob x

/-- Writing `co` or `is_select` of a cell that is not in a queue. -/
theorem setCo_inv {s out own gs xs} (I : Inv s out own gs xs) (b v : Nat) (hb : ∀ i, own b ≠ .inq i) :
    Inv (setCo s b v) out own gs xs := by
  have hpn : ∀ x, ((setCo s b v).mem x).prev = (s.mem x).prev ∧ ((setCo s b v).mem x).next = (s.mem x).next := by
    intro x
    by_cases h : x = b
    · subst h; simp [setCo, upd_self]
    · simp [setCo, upd_ne _ _ _ _ h]
  refine inv_cache I rfl (fun _ _ => Iff.rfl) ?_ I.free I.zero I.out I.cache I.cacheNd I.cacheLen ?_ ?_ I.glob I.globNd ?_
    I.globHd
  · intro i x h
    have : x ≠ b := fun e => hb i (e ▸ h)
    simp only [setCo, upd_ne _ _ _ _ this]
    exact Eqv.rfl'
  · intro x hx; rw [(hpn x).1, (hpn x).2]; exact I.cleanOut x hx
  · intro x p hx; rw [(hpn x).1, (hpn x).2]; exact I.cleanCache x p hx
  · exact SL_frame (fun x _ => hpn x) I.globSL

theorem setSelect_inv {s out own gs xs} (I : Inv s out own gs xs) (b : Nat) (v : Bool) :
    Inv (setSelect s b v) out own gs xs := by
  have hpn : ∀ x, Eqv ((setSelect s b v).mem x) (s.mem x) := by
    intro x
    by_cases h : x = b
    · subst h; simp [setSelect, upd_self, Eqv]
    · simp [setSelect, upd_ne _ _ _ _ h, Eqv]
  refine inv_cache I rfl (fun _ _ => Iff.rfl) (fun _ x _ => hpn x) I.free I.zero I.out I.cache I.cacheNd I.cacheLen ?_ ?_
    I.glob I.globNd ?_ I.globHd
  · intro x hx; rw [(hpn x).1, (hpn x).2.1]; exact I.cleanOut x hx
  · intro x p hx; rw [(hpn x).1, (hpn x).2.1]; exact I.cleanCache x p hx
  · exact SL_frame (fun x _ => ⟨(hpn x).1, (hpn x).2.1⟩) I.globSL

theorem done_inv {s out own gs xs} (I : Inv s out own gs xs) (d : Nat → Bool) :
    Inv { s with done := d } out own gs xs :=
  inv_cache I rfl (fun _ _ => Iff.rfl) (fun _ _ _ => Eqv.rfl') I.free I.zero I.out I.cache I.cacheNd I.cacheLen I.cleanOut
    I.cleanCache I.glob I.globNd I.globSL I.globHd

theorem hd_cons_ne {ts : List Nat} {t z z' : Nat} : hd (t :: ts) z = hd (t :: ts) z' := rfl

/-- The unloading loop, once it has a first cell. -/
theorem give_spec (p : Nat) : ∀ (ts : List Nat) (s : St) (f l : Nat) (rest : List Nat), f ≠ 0 →
    s.cache p = ts ++ rest → (l :: ts).Nodup → (∀ x ∈ l :: ts, (s.mem x).prev = 0 ∧ (s.mem x).next = 0) →
    ∃ s', give p ts.length f l s = some (f, lastOr l ts, s') ∧ s'.cache = upd s.cache p rest ∧
      s'.q = s.q ∧ s'.done = s.done ∧ s'.global = s.global ∧ s'.live = s.live ∧ SL s'.mem (l :: ts) 0 ∧
      (∀ x, x ∉ l :: ts → s'.mem x = s.mem x) ∧ (∀ x, (s'.mem x).co = (s.mem x).co) := by
  intro ts
  induction ts with
  | nil =>
    intro s f l rest hf hc hnd hcl
    refine ⟨s, rfl, ?_, rfl, rfl, rfl, rfl, ⟨(hcl l (by simp)).1, (hcl l (by simp)).2, True.intro⟩, fun _ _ => rfl,
      fun _ => rfl⟩
    funext x
    by_cases h : x = p
    · subst h; rw [upd_self]; simpa using hc
    · rw [upd_ne _ _ _ _ h]
  | cons t ts ih =>
    intro s f l rest hf hc hnd hcl
    simp only [List.nodup_cons, List.mem_cons, not_or] at hnd
    have hlt : l ≠ t := hnd.1.1
    let s1 := setNext (setCache s p (ts ++ rest)) l t
    have hs1 : ∀ x, x ≠ l → s1.mem x = s.mem x := fun x h => by
      simp only [s1, setNext, setCache, upd_ne _ _ _ _ h]
    obtain ⟨s', e, h1, h2, h3, h4, h5, h6, h7, h8⟩ := ih s1 f t rest hf (by
        show upd s.cache p (ts ++ rest) p = _
        rw [upd_self]) (by simp only [List.nodup_cons]; exact hnd.2) (by
        intro x hx
        have hxl : x ≠ l := by
          rcases List.mem_cons.1 hx with rfl | hx
          · exact Ne.symm hlt
          · rintro rfl; exact hnd.1.2 hx
        rw [hs1 x hxl]
        exact hcl x (List.mem_cons_of_mem _ hx))
    have hl' : s'.mem l = { s.mem l with next := t } := by
      rw [h7 l (by simp only [List.mem_cons, not_or]; exact hnd.1)]
      simp only [s1, setNext, setCache, upd_self]
    refine ⟨s', ?_, ?_, h2.trans rfl, h3.trans rfl, h4.trans rfl, h5.trans rfl, ⟨?_, ?_, h6⟩, ?_, ?_⟩
    · rw [List.length_cons, give, hc, List.cons_append]
      simp only [if_neg hf]
      exact e
    · rw [h1]
      funext x
      by_cases h : x = p
      · subst h; rw [upd_self, upd_self]
      · rw [upd_ne _ _ _ _ h, upd_ne _ _ _ _ h]
        simp only [s1, setNext, setCache, upd_ne _ _ _ _ h]
    · rw [hl']; exact (hcl l (by simp)).1
    · rw [hl']; rfl
    · intro x hx
      simp only [List.mem_cons, not_or] at hx
      rw [h7 x (by simp only [List.mem_cons, not_or]; exact hx.2), hs1 x hx.1]
    · intro x
      rw [h8 x]
      by_cases h : x = l
      · subst h; simp [s1, setNext, setCache, upd_self]
      · rw [hs1 x h]

theorem give_start (p n t : Nat) (ts rest : List Nat) (s : St) (hc : s.cache p = (t :: ts) ++ rest) (hn : n = ts.length) :
    give p (n + 1) 0 0 s = give p n t t (setCache s p (ts ++ rest)) := by
  rw [give, hc]
  simp

theorem lastOr_mem (l : Nat) (ts : List Nat) : lastOr l ts ∈ l :: ts := by
  induction ts generalizing l with
  | nil => simp [lastOr]
  | cons t ts ih => exact List.mem_cons_of_mem _ (ih t)

/-- Pointing the last cell of a chain elsewhere. -/
theorem SL_setNext {m : Nat → Lc} (z : Nat) : ∀ (l : Nat) (ts : List Nat), (l :: ts).Nodup → SL m (l :: ts) 0 →
    SL (upd m (lastOr l ts) { m (lastOr l ts) with next := z }) (l :: ts) z := by
  intro l ts
  induction ts generalizing l with
  | nil => intro _ h; exact ⟨by simp [lastOr, upd_self]; exact h.1, by simp [lastOr, upd_self, hd], True.intro⟩
  | cons t ts ih =>
    intro hnd h
    have hl : l ≠ lastOr t ts := by
      intro e
      have := lastOr_mem t ts
      rw [← e] at this
      exact (List.nodup_cons.1 hnd).1 this
    have := ih t (List.nodup_cons.1 hnd).2 h.2.2
    refine ⟨?_, ?_, this⟩
    · show (upd m (lastOr t ts) _ l).prev = 0
      rw [upd_ne _ _ _ _ hl]; exact h.1
    · show (upd m (lastOr t ts) _ l).next = _
      rw [upd_ne _ _ _ _ hl]; exact h.2.1

theorem release_inv {s out own gs xs} (I : Inv s out own gs xs) (p b : Nat) (hb : out b) :
    ∃ s' own' gs', release s p b = some s' ∧ Inv s' (fun x => x ≠ b ∧ out x) own' gs' xs ∧ Frame s s' own ∧
      (∀ i a, own' a = .inq i ↔ own a = .inq i) := by
  have hob : own b = .out := (I.out b).1 hb
  have hcl := I.cleanOut b hob
  have I1 := setCo_inv I b 0 (fun i h => by rw [hob] at h; cases h)
  have hfr1 : ∀ i x, own x = .inq i → (setCo s b 0).mem x = s.mem x := by
    intro i x h
    have : x ≠ b := by rintro rfl; rw [hob] at h; cases h
    simp only [setCo, upd_ne _ _ _ _ this]
  have hc1 : ∀ p, (setCo s b 0).cache p = s.cache p := fun _ => rfl
  unfold release
  rw [if_neg (by rw [hcl.1, hcl.2]; simp)]
  simp only [hc1]
  have inqUpd : ∀ (own : Nat → Place) (pl : Place) i x, (∀ i, own b ≠ .inq i) → (∀ i, pl ≠ .inq i) →
      (upd own b pl x = .inq i ↔ own x = .inq i) := by
    intro own pl i x h1 h2
    by_cases h : x = b
    · subst h; rw [upd_self]; exact ⟨fun h => absurd h (h2 i), fun h => absurd h (h1 i)⟩
    · rw [upd_ne _ _ _ _ h]
  by_cases hfull : (s.cache p).length = cacheMax
  · rw [if_pos hfull]
    -- the cells unloaded
    obtain ⟨t, ts, rest, hcs, htl⟩ : ∃ t ts rest, s.cache p = (t :: ts) ++ rest ∧ ts.length = 63 := by
      have h1 : (s.cache p).take 64 ≠ [] := by
        intro h
        have := congrArg List.length h
        rw [List.length_take, hfull] at this
        simp [cacheMax] at this
      obtain ⟨t, ts, e⟩ := List.exists_cons_of_ne_nil h1
      refine ⟨t, ts, (s.cache p).drop 64, by rw [← e, List.take_append_drop], ?_⟩
      have := congrArg List.length e
      rw [List.length_take, hfull, List.length_cons] at this
      simp [cacheMax] at this
      omega
    have hnd := I.cacheNd p
    rw [hcs] at hnd
    have hndT : (t :: ts).Nodup := (List.nodup_append.1 hnd).1
    have hndR : rest.Nodup := (List.nodup_append.1 hnd).2.1
    have hdis : ∀ x, x ∈ t :: ts → x ∉ rest := fun x h1 h2 => (List.nodup_append.1 hnd).2.2 x h1 x h2 rfl
    have hcT : ∀ x, x ∈ t :: ts → own x = .cached p := fun x h => (I.cache p x).1 (by
      rw [hcs]; exact List.mem_append_left _ h)
    let s1 := setCo s b 0
    let s2 := setCache s1 p (ts ++ rest)
    obtain ⟨s', e, h1, h2, h3, h4, h5, h6, h7, h8⟩ := give_spec p ts s2 t t rest (I.ne0 (by rw [hcT t (by simp)]; simp))
      (by show upd s.cache p (ts ++ rest) p = _; rw [upd_self]) hndT (fun x hx => I1.cleanCache x p (hcT x hx))
    have hg : give p (cacheMax - cacheMax / 2) 0 0 s1 = some (t, lastOr t ts, s') := by
      rw [show cacheMax - cacheMax / 2 = 63 + 1 from rfl, give_start p 63 t ts rest s1 hcs htl.symm, ← htl]
      exact e
    show ∃ _ _ _, Option.map _ (give p (cacheMax - cacheMax / 2) 0 0 s1) = _ ∧ _
    rw [hg]
    let last := lastOr t ts
    have hlm : last ∈ t :: ts := lastOr_mem t ts
    -- final state and its places
    let s5 := setCache { setNext s' last s'.global with global := t } p (b :: s'.cache p)
    let own' : Nat → Place := fun x => if x = b then .cached p else if x ∈ t :: ts then .glob else own x
    have hbT : b ∉ t :: ts := fun h => by rw [hcT b h] at hob; cases hob
    have hm5 : ∀ x, x ∉ t :: ts → s5.mem x = s1.mem x := by
      intro x hx
      have hxl : x ≠ last := fun h => hx (h ▸ hlm)
      show upd s'.mem last _ x = _
      rw [upd_ne _ _ _ _ hxl, h7 x hx]
      rfl
    have hs'c : s'.cache = upd s.cache p rest := by
      rw [h1]
      funext x
      by_cases h : x = p
      · subst h; rw [upd_self, upd_self]
      · rw [upd_ne _ _ _ _ h, upd_ne _ _ _ _ h]
        show upd s.cache p (ts ++ rest) x = _
        rw [upd_ne _ _ _ _ h]
    have hc5 : s5.cache = upd s.cache p (b :: rest) := by
      show upd s'.cache p (b :: s'.cache p) = _
      rw [hs'c]
      funext x
      by_cases h : x = p
      · subst h; rw [upd_self, upd_self, upd_self]
      · rw [upd_ne _ _ _ _ h, upd_ne _ _ _ _ h, upd_ne _ _ _ _ h]
    have ownq : ∀ i x, own' x = .inq i ↔ own x = .inq i := by
      intro i x
      simp only [own']
      by_cases h : x = b
      · subst h; rw [if_pos rfl, hob]; simp
      · rw [if_neg h]
        by_cases h2 : x ∈ t :: ts
        · rw [if_pos h2, hcT x h2]; simp
        · rw [if_neg h2]
    refine ⟨s5, own', (t :: ts) ++ gs, rfl, ?_, ⟨h2.trans rfl, h3.trans rfl, ?_⟩, ownq⟩
    · refine inv_cache I1 (h2.trans rfl) ownq ?_ ?_ ?_ ?_ ?_ ?_ ?_ ?_ ?_ ?_ ?_ ?_ ?_
      · intro i x h
        rw [hm5 x (fun hx => by rw [hcT x hx] at h; cases h)]
        exact Eqv.rfl'
      · intro x
        have hlv : s5.live = s.live := h5.trans rfl
        rw [hlv, ← I.free]
        simp only [own']
        by_cases h : x = b
        · subst h; rw [if_pos rfl, hob]; simp
        · rw [if_neg h]
          by_cases h2 : x ∈ t :: ts
          · rw [if_pos h2, hcT x h2]; simp
          · rw [if_neg h2]
      · simp only [own']
        rw [if_neg (Ne.symm (I.ne0 (by rw [hob]; simp))), if_neg, I.zero]
        intro h
        have := hcT 0 h
        rw [I.zero] at this; cases this
      · intro x
        simp only [own']
        by_cases h : x = b
        · subst h; simp
        · rw [if_neg h, I.out]
          by_cases h2 : x ∈ t :: ts
          · rw [if_pos h2, hcT x h2]; simp
          · rw [if_neg h2]; simp [h]
      · intro p' x
        rw [hc5]
        simp only [own']
        by_cases hp : p' = p
        · subst hp
          rw [upd_self, List.mem_cons]
          have hx := I.cache p' x
          rw [hcs, List.mem_append] at hx
          by_cases h : x = b
          · subst h; simp
          · rw [if_neg h]
            by_cases h2 : x ∈ t :: ts
            · rw [if_pos h2]; simp [h, hdis x h2]
            · rw [if_neg h2, ← hx]; simp only [h, false_or, h2]
        · rw [upd_ne _ _ _ _ hp, I.cache]
          by_cases h : x = b
          · subst h; rw [if_pos rfl, hob]; simp [Ne.symm hp]
          · rw [if_neg h]
            by_cases h2 : x ∈ t :: ts
            · rw [if_pos h2, hcT x h2]; simp [Ne.symm hp]
            · rw [if_neg h2]
      · intro p'
        rw [hc5]
        by_cases hp : p' = p
        · subst hp
          rw [upd_self, List.nodup_cons]
          refine ⟨fun h => ?_, hndR⟩
          have : b ∈ s.cache p' := by rw [hcs]; exact List.mem_append_right _ h
          rw [I.cache, hob] at this; cases this
        · rw [upd_ne _ _ _ _ hp]; exact I.cacheNd _
      · intro p'
        rw [hc5]
        by_cases hp : p' = p
        · subst hp
          rw [upd_self, List.length_cons]
          have := hfull
          rw [hcs, List.length_append, List.length_cons, htl] at this
          omega
        · rw [upd_ne _ _ _ _ hp]; exact I.cacheLen _
      · intro x hx
        simp only [own'] at hx
        by_cases h : x = b
        · rw [if_pos h] at hx; cases hx
        · rw [if_neg h] at hx
          by_cases h2 : x ∈ t :: ts
          · rw [if_pos h2] at hx; cases hx
          · rw [if_neg h2] at hx
            rw [hm5 x h2]; exact I1.cleanOut x hx
      · intro x p' hx
        simp only [own'] at hx
        by_cases h : x = b
        · subst h
          rw [hm5 x hbT]
          exact I1.cleanOut x hob
        · rw [if_neg h] at hx
          by_cases h2 : x ∈ t :: ts
          · rw [if_pos h2] at hx; cases hx
          · rw [if_neg h2] at hx
            rw [hm5 x h2]; exact I1.cleanCache x p' hx
      · intro x
        rw [List.mem_append, I.glob]
        simp only [own']
        by_cases h : x = b
        · subst h; rw [if_pos rfl, hob]; simp [hbT]
        · rw [if_neg h]
          by_cases h2 : x ∈ t :: ts
          · rw [if_pos h2]; simp [h2]
          · rw [if_neg h2]; simp only [h2, false_or]
      · rw [List.nodup_append]
        refine ⟨hndT, I.globNd, fun x h1 y h2 e => ?_⟩
        subst e
        rw [I.glob, hcT x h1] at h2; cases h2
      · rw [SL_append]
        constructor
        · have hglob : s'.global = hd gs 0 := h4.trans I.globHd
          have := SL_setNext (m := s'.mem) (hd gs 0) t ts hndT h6
          show SL (upd s'.mem last { s'.mem last with next := s'.global }) (t :: ts) (hd gs 0)
          rw [hglob]
          exact this
        · refine SL_frame (fun x hx => ?_) I1.globSL
          rw [hm5 x (fun h => by
            have := hcT x h
            rw [(I.glob x).1 hx] at this; cases this)]
          exact ⟨rfl, rfl⟩
      · rfl
    · intro i x h
      rw [hm5 x (fun hx => by rw [hcT x hx] at h; cases h)]
      exact hfr1 i x h
  · rw [if_neg hfull]
    have hlt : ((setCo s b 0).cache p).length < cacheMax := by
      have := I.cacheLen p
      show (s.cache p).length < cacheMax
      omega
    exact ⟨_, _, _, rfl, put_inv I1 p b hob hlt, ⟨rfl, rfl, hfr1⟩, fun i x => inqUpd own _ i x (fun i h => by
      rw [hob] at h; cases h) (fun i h => by cases h)⟩

end Nature.Linkco
