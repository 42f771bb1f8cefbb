import Verif.Linkco.Lemmas
namespace Nature.Linkco

theorem hd_mem {xs : List Nat} (h : xs ≠ []) (z : Nat) : hd xs z ∈ xs := by
  cases xs with
  | nil => exact absurd rfl h
  | cons a t => simp [hd]

theorem lastOr_mem' {xs : List Nat} (h : xs ≠ []) (p : Nat) : lastOr p xs ∈ xs := by
  cases xs with
  | nil => exact absurd rfl h
  | cons a t => exact lastOr_mem a t

/-- Redirecting the end of a segment. -/
theorem DL_end {m m' : Nat → Lc} {z z' : Nat} : ∀ (l : List Nat) (p : Nat), l.Nodup → DL m p l z →
    (∀ x ∈ l, (m' x).prev = (m x).prev ∧ (m' x).next = if x = lastOr 0 l then z' else (m x).next) → DL m' p l z' := by
  intro l
  induction l with
  | nil => intro _ _ _ _; exact True.intro
  | cons a t ih =>
    intro p hnd d h
    have ha := h a (by simp)
    have hd2 := List.nodup_cons.1 hnd
    cases t with
    | nil =>
      refine ⟨ha.1.trans d.1, ?_, True.intro⟩
      rw [ha.2, if_pos (show a = lastOr 0 [a] from rfl)]; rfl
    | cons b t =>
      have hne : a ≠ lastOr 0 (b :: t) := fun e => hd2.1 (e ▸ lastOr_mem' (by simp) 0)
      refine ⟨ha.1.trans d.1, ?_, ih a hd2.2 d.2.2 fun x hx => h x (List.mem_cons_of_mem _ hx)⟩
      rw [ha.2, if_neg (by exact hne)]; exact d.2.1

/-- Redirecting the start of a segment. -/
theorem DL_start {m m' : Nat → Lc} {z p p' : Nat} (r : List Nat) (hnd : r.Nodup) (d : DL m p r z)
    (h : ∀ x ∈ r, (m' x).next = (m x).next ∧ (m' x).prev = if x = hd r 0 then p' else (m x).prev) : DL m' p' r z := by
  cases r with
  | nil => exact True.intro
  | cons a t =>
    have ha := h a (by simp)
    have hd2 := List.nodup_cons.1 hnd
    refine ⟨by rw [ha.2, if_pos (show a = hd (a :: t) 0 from rfl)], ha.1.trans d.2.1, ?_⟩
    have key : ∀ (t : List Nat) (q : Nat), (∀ x ∈ t, (m' x).next = (m x).next ∧ (m' x).prev = (m x).prev) →
        DL m q t z → DL m' q t z := by
      intro t
      induction t with
      | nil => intro _ _ _; exact True.intro
      | cons b t ih =>
        intro q hx d
        exact ⟨(hx b (by simp)).2.trans d.1, (hx b (by simp)).1.trans d.2.1,
          ih b (fun x h => hx x (List.mem_cons_of_mem _ h)) d.2.2⟩
    refine key t a (fun x hx => ?_) d.2.2
    have hxa : x ≠ hd (a :: t) 0 := by
      rintro rfl; exact hd2.1 hx
    have := h x (List.mem_cons_of_mem _ hx)
    rw [if_neg hxa] at this
    exact this

theorem hd_eq_zero {s out own gs xs} (I : Inv s out own gs xs) (i : QId) : hd (xs i) 0 = 0 ↔ xs i = [] := by
  constructor
  · intro h
    cases hx : xs i with
    | nil => rfl
    | cons a t =>
      rw [hx] at h
      exact absurd h (I.q_ne0 (i := i) (by rw [hx]; exact List.mem_cons_self))
  · intro h; rw [h]; rfl

theorem lastOr_eq_zero {s out own gs xs} (I : Inv s out own gs xs) (i : QId) : lastOr 0 (xs i) = 0 ↔ xs i = [] := by
  constructor
  · intro h
    by_cases hx : xs i = []
    · exact hx
    · exact absurd h (I.q_ne0 (lastOr_mem' hx 0))
  · intro h; rw [h]; rfl

/-- A cell taken out of queue `i` at any place. -/
theorem unlink_inv {s s' : St} {out own gs xs} (I : Inv s out own gs xs) (i : QId) (l r : List Nat) (b : Nat)
    (hx : xs i = l ++ b :: r)
    (hc : s'.cache = s.cache) (hg : s'.global = s.global) (hl : s'.live = s.live)
    (hmb : (s'.mem b).prev = 0 ∧ (s'.mem b).next = 0)
    (hco : ∀ x, (s'.mem x).co = (s.mem x).co)
    (hprev : ∀ x, x ≠ b → x ≠ 0 → (s'.mem x).prev = if x = hd r 0 then lastOr 0 l else (s.mem x).prev)
    (hnext : ∀ x, x ≠ b → x ≠ 0 → (s'.mem x).next = if x = lastOr 0 l then hd r 0 else (s.mem x).next)
    (hhead : (s'.q i).head = hd (l ++ r) 0) (hrear : (s'.q i).rear = lastOr 0 (l ++ r))
    (hcount : ∀ k, i = .list k → (s'.q i).count = (l ++ r).length)
    (hq : ∀ j, j ≠ i → s'.q j = s.q j) :
    Inv s' (fun x => x = b ∨ out x) (upd own b .out) gs (upd xs i (l ++ r)) := by
  have hown : ∀ x, x ∈ l ++ b :: r → own x = .inq i := fun x h => (I.q i x).1 (hx ▸ h)
  have hob : own b = .inq i := hown b (by simp)
  have hnd := I.qNd i
  rw [hx] at hnd
  have hnd2 := List.nodup_append.1 hnd
  have hndr := List.nodup_cons.1 hnd2.2.1
  have hbl : b ∉ l := fun h => hnd2.2.2 b h b (by simp) rfl
  have hbr : b ∉ r := hndr.1
  have hlr : ∀ x, x ∈ l → x ∉ r := fun x h1 h2 => hnd2.2.2 x h1 x (List.mem_cons_of_mem _ h2) rfl
  have h0 : ∀ x, x ∈ l ++ b :: r → x ≠ 0 := fun x h => I.q_ne0 (i := i) (hx ▸ h)
  have hdr : ∀ x, x ≠ 0 → x = hd r 0 → x ∈ r := by
    intro x h1 h2
    cases r with
    | nil => exact absurd h2 h1
    | cons c r => rw [h2]; simp [hd]
  have hll : ∀ x, x ≠ 0 → x = lastOr 0 l → x ∈ l := by
    intro x h1 h2
    by_cases h : l = []
    · subst h; exact absurd h2 h1
    · rw [h2]; exact lastOr_mem' h 0
  have dl := I.qDL i
  rw [hx, DL_append] at dl
  refine inv_queue I i (l ++ r) hc hg hl ?_ ?_ ?_ ?_ ?_ ?_ ?_ hhead hrear hcount ?_ hq
  · intro x
    by_cases h : x = b
    · subst h; exact Or.inr (Or.inr ⟨hob, upd_self _ _ _⟩)
    · exact Or.inl (upd_ne _ _ _ _ h)
  · intro x hf h1 h2
    have hxb : x ≠ b := fun e => h2 (e ▸ hob)
    have hx0 : x ≠ 0 := I.ne0 hf
    rw [Eqv, hprev x hxb hx0, hnext x hxb hx0, if_neg, if_neg]
    · exact ⟨rfl, rfl, hco x⟩
    · intro e; exact h2 (hown x (by simp [hll x hx0 e]))
    · intro e; exact h2 (hown x (by simp [hdr x hx0 e]))
  · intro x
    by_cases h : x = b
    · subst h; simp [upd_self]
    · rw [upd_ne _ _ _ _ h, ← I.out]; simp [h]
  · intro x ho
    by_cases h : x = b
    · subst h; exact hmb
    · rw [upd_ne _ _ _ _ h] at ho
      have hx0 : x ≠ 0 := I.ne0 (by rw [ho]; simp)
      rw [hprev x h hx0, hnext x h hx0, if_neg, if_neg]
      · exact I.cleanOut x ho
      · intro e
        have := hown x (by simp [hll x hx0 e])
        rw [ho] at this; cases this
      · intro e
        have := hown x (by simp [hdr x hx0 e])
        rw [ho] at this; cases this
  · intro x
    by_cases h : x = b
    · subst h; rw [upd_self]; simp [hbl, hbr]
    · rw [upd_ne _ _ _ _ h, ← I.q, hx]; simp [h]
  · exact List.nodup_append.2 ⟨hnd2.1, hndr.2, fun x h1 y h2 => hnd2.2.2 x h1 y (List.mem_cons_of_mem _ h2)⟩
  · rw [DL_append]
    constructor
    · refine DL_end l 0 hnd2.1 dl.1 fun x hxl => ?_
      have hx0 := h0 x (by simp [hxl])
      have hxb : x ≠ b := fun e => hbl (e ▸ hxl)
      rw [hprev x hxb hx0, hnext x hxb hx0, if_neg fun e => hlr x hxl (hdr x hx0 e)]
      exact ⟨rfl, rfl⟩
    · refine DL_start r hndr.2 dl.2.2.2 fun x hxr => ?_
      have hx0 := h0 x (by simp [hxr])
      have hxb : x ≠ b := fun e => hbr (e ▸ hxr)
      rw [hprev x hxb hx0, hnext x hxb hx0]
      refine ⟨if_neg fun e => hlr x (hll x hx0 e) hxr, rfl⟩
  · intro x hx'
    rw [hco x]
    refine I.qCo i x (hx ▸ ?_)
    simp only [List.mem_append, List.mem_cons] at hx' ⊢
    rcases hx' with h | h
    · exact Or.inl h
    · exact Or.inr (Or.inr h)

theorem Inv.congr {s out out' own gs xs} (I : Inv s out own gs xs) (h : ∀ x, out' x ↔ out x) : Inv s out' own gs xs :=
  { I with out := fun a => (h a).trans (I.out a) }

theorem upd_same {α} [DecidableEq α] {β} (f : α → β) (a : α) : upd f a (f a) = f := by
  funext x
  by_cases h : x = a
  · subst h; exact upd_self _ _ _
  · exact upd_ne _ _ _ _ h

/-- A cell held by a caller appended to queue `i`. -/
theorem linkBack_inv {s s' : St} {out own gs xs} (I : Inv s out own gs xs) (i : QId) (b : Nat) (hb : out b)
    (hc : s'.cache = s.cache) (hg : s'.global = s.global) (hl : s'.live = s.live)
    (hmb : (s'.mem b).prev = lastOr 0 (xs i) ∧ (s'.mem b).next = 0 ∧ (s'.mem b).co ≠ 0)
    (hco : ∀ x, x ≠ b → (s'.mem x).co = (s.mem x).co)
    (hprev : ∀ x, x ≠ b → (s'.mem x).prev = (s.mem x).prev)
    (hnext : ∀ x, x ≠ b → x ≠ 0 → (s'.mem x).next = if x = lastOr 0 (xs i) then b else (s.mem x).next)
    (hhead : (s'.q i).head = hd (xs i ++ [b]) 0) (hrear : (s'.q i).rear = b)
    (hcount : ∀ k, i = .list k → (s'.q i).count = (xs i).length + 1)
    (hq : ∀ j, j ≠ i → s'.q j = s.q j) :
    Inv s' (fun x => x ≠ b ∧ out x) (upd own b (.inq i)) gs (upd xs i (xs i ++ [b])) := by
  have hob : own b = .out := (I.out b).1 hb
  have hbx : b ∉ xs i := fun h => by rw [(I.q i b).1 h] at hob; cases hob
  have hll : ∀ x, x ≠ 0 → x = lastOr 0 (xs i) → x ∈ xs i := by
    intro x h1 h2
    by_cases h : xs i = []
    · rw [h] at h2; exact absurd h2 h1
    · rw [h2]; exact lastOr_mem' h 0
  refine inv_queue I i (xs i ++ [b]) hc hg hl ?_ ?_ ?_ ?_ ?_ ?_ ?_ hhead (by rw [hrear, lastOr_snoc])
    (fun k hk => by rw [hcount k hk]; simp) ?_ hq
  · intro x
    by_cases h : x = b
    · subst h; exact Or.inr (Or.inl ⟨hob, upd_self _ _ _⟩)
    · exact Or.inl (upd_ne _ _ _ _ h)
  · intro x hf h1 h2
    have hxb : x ≠ b := fun e => h1 (e ▸ hob)
    have hx0 : x ≠ 0 := I.ne0 hf
    rw [Eqv, hprev x hxb, hnext x hxb hx0, if_neg]
    · exact ⟨rfl, rfl, hco x hxb⟩
    · intro e; exact h2 ((I.q i x).1 (hll x hx0 e))
  · intro x
    by_cases h : x = b
    · subst h; simp [upd_self]
    · rw [upd_ne _ _ _ _ h, ← I.out]; simp [h]
  · intro x ho
    have h : x ≠ b := by rintro rfl; rw [upd_self] at ho; cases ho
    rw [upd_ne _ _ _ _ h] at ho
    have hx0 : x ≠ 0 := I.ne0 (by rw [ho]; simp)
    rw [hprev x h, hnext x h hx0, if_neg]
    · exact I.cleanOut x ho
    · intro e
      have := (I.q i x).1 (hll x hx0 e)
      rw [ho] at this; cases this
  · intro x
    by_cases h : x = b
    · subst h; rw [upd_self]; simp
    · rw [upd_ne _ _ _ _ h, ← I.q]; simp [h]
  · exact List.nodup_append.2 ⟨I.qNd i, by simp, fun x h1 y h2 e => by
      have : y = b := by simpa using h2
      subst this; subst e; exact hbx h1⟩
  · rw [DL_append]
    refine ⟨DL_end (xs i) 0 (I.qNd i) (I.qDL i) fun x hxl => ?_, hmb.1, hmb.2.1, True.intro⟩
    have hx0 := I.q_ne0 hxl
    have hxb : x ≠ b := fun e => hbx (e ▸ hxl)
    exact ⟨hprev x hxb, hnext x hxb hx0⟩
  · intro x hx'
    by_cases h : x = b
    · subst h; exact hmb.2.2
    · rw [hco x h]
      exact I.qCo i x (by simpa [h] using hx')

/-- A cell held by a caller put at the front of queue `i`. -/
theorem linkFront_inv {s s' : St} {out own gs xs} (I : Inv s out own gs xs) (i : QId) (b : Nat) (hb : out b)
    (hc : s'.cache = s.cache) (hg : s'.global = s.global) (hl : s'.live = s.live)
    (hmb : (s'.mem b).prev = 0 ∧ (s'.mem b).next = hd (xs i) 0 ∧ (s'.mem b).co ≠ 0)
    (hco : ∀ x, x ≠ b → (s'.mem x).co = (s.mem x).co)
    (hnext : ∀ x, x ≠ b → (s'.mem x).next = (s.mem x).next)
    (hprev : ∀ x, x ≠ b → x ≠ 0 → (s'.mem x).prev = if x = hd (xs i) 0 then b else (s.mem x).prev)
    (hhead : (s'.q i).head = b) (hrear : (s'.q i).rear = lastOr b (xs i))
    (hcount : ∀ k, i = .list k → (s'.q i).count = (xs i).length + 1)
    (hq : ∀ j, j ≠ i → s'.q j = s.q j) :
    Inv s' (fun x => x ≠ b ∧ out x) (upd own b (.inq i)) gs (upd xs i (b :: xs i)) := by
  have hob : own b = .out := (I.out b).1 hb
  have hbx : b ∉ xs i := fun h => by rw [(I.q i b).1 h] at hob; cases hob
  have hhd : ∀ x, x ≠ 0 → x = hd (xs i) 0 → x ∈ xs i := by
    intro x h1 h2
    by_cases h : xs i = []
    · rw [h] at h2; exact absurd h2 h1
    · rw [h2]; exact hd_mem h 0
  refine inv_queue I i (b :: xs i) hc hg hl ?_ ?_ ?_ ?_ ?_ ?_ ?_ hhead hrear
    (fun k hk => by rw [hcount k hk]; simp) ?_ hq
  · intro x
    by_cases h : x = b
    · subst h; exact Or.inr (Or.inl ⟨hob, upd_self _ _ _⟩)
    · exact Or.inl (upd_ne _ _ _ _ h)
  · intro x hf h1 h2
    have hxb : x ≠ b := fun e => h1 (e ▸ hob)
    have hx0 : x ≠ 0 := I.ne0 hf
    rw [Eqv, hprev x hxb hx0, hnext x hxb, if_neg]
    · exact ⟨rfl, rfl, hco x hxb⟩
    · intro e; exact h2 ((I.q i x).1 (hhd x hx0 e))
  · intro x
    by_cases h : x = b
    · subst h; simp [upd_self]
    · rw [upd_ne _ _ _ _ h, ← I.out]; simp [h]
  · intro x ho
    have h : x ≠ b := by rintro rfl; rw [upd_self] at ho; cases ho
    rw [upd_ne _ _ _ _ h] at ho
    have hx0 : x ≠ 0 := I.ne0 (by rw [ho]; simp)
    rw [hprev x h hx0, hnext x h, if_neg]
    · exact I.cleanOut x ho
    · intro e
      have := (I.q i x).1 (hhd x hx0 e)
      rw [ho] at this; cases this
  · intro x
    by_cases h : x = b
    · subst h; rw [upd_self]; simp
    · rw [upd_ne _ _ _ _ h, ← I.q]; simp [h]
  · exact List.nodup_cons.2 ⟨hbx, I.qNd i⟩
  · refine ⟨hmb.1, hmb.2.1, DL_start (xs i) (I.qNd i) (I.qDL i) fun x hxl => ?_⟩
    have hx0 := I.q_ne0 hxl
    have hxb : x ≠ b := fun e => hbx (e ▸ hxl)
    exact ⟨hnext x hxb, hprev x hxb hx0⟩
  · intro x hx'
    by_cases h : x = b
    · subst h; exact hmb.2.2
    · rw [hco x h]
      exact I.qCo i x (by simpa [h] using hx')

/-- `linkco_list_push`. -/
theorem listPush_spec {s out own gs xs} (I : Inv s out own gs xs) (p k v a : Nat) (hv : v ≠ 0) (ha : a ≠ 0)
    (hl : s.live a = false) :
    ∃ b s' own' gs', listPush s p k v a = some s' ∧
      Inv s' out own' gs' (upd xs (.list k) (xs (.list k) ++ [b])) ∧ (s'.mem b).co = v ∧ s'.done = s.done ∧
      (∀ i x, x ∈ xs i → (s'.mem x).co = (s.mem x).co ∧ (s'.mem x).isSelect = (s.mem x).isSelect) := by
  obtain ⟨b, s1, own1, gs1, e1, I1, F1, hnq, hno, hb0, ho1⟩ := acquire_inv I p a ha hl
  have hob1 : own1 b = .out := (I1.out b).1 (Or.inl rfl)
  have hnq1 : ∀ i, own1 b ≠ .inq i := fun i h => by rw [hob1] at h; cases h
  have I2 := setCo_inv I1 b v hnq1
  have hcl := I1.cleanOut b hob1
  have hqq : (setCo s1 b v).q (.list k) = s.q (.list k) := congrFun F1.q _
  have hfr : ∀ i x, x ∈ xs i → x ≠ b ∧ s1.mem x = s.mem x := by
    intro i x hx
    have := (I.q i x).1 hx
    exact ⟨fun e => hnq i (e ▸ this), F1.mem i x this⟩
  have hout : ∀ x, out x ↔ x ≠ b ∧ (x = b ∨ out x) := by
    intro x
    by_cases h : x = b
    · subst h; simp [hno]
    · simp [h]
  by_cases hx : xs (.list k) = []
  · have hh : (s.q (.list k)).head = 0 := by rw [I.qHead, hx]; rfl
    have hr : (s.q (.list k)).rear = 0 := by rw [I.qRear, hx]; rfl
    refine ⟨b, setQ (setCo s1 b v) (.list k) ⟨b, b, (s.q (.list k)).count + 1⟩, upd own1 b (.inq (.list k)), gs1, ?_, ?_, ?_, ?_, ?_⟩
    · simp only [listPush, e1, Option.bind_some, hcl.1, hcl.2, hqq, hh, hr]
      rfl
    · refine Inv.congr (linkBack_inv I2 (.list k) b (Or.inl rfl) rfl rfl rfl ?_ (fun _ _ => rfl) (fun _ _ => rfl) ?_ ?_ ?_
        ?_ ?_) hout
      · rw [hx]
        refine ⟨?_, ?_, ?_⟩
        · simp only [setQ, setCo, upd_self]; exact hcl.1
        · simp only [setQ, setCo, upd_self]; exact hcl.2
        · simp only [setQ, setCo, upd_self]; exact hv
      · intro x _ h0
        rw [hx]
        show _ = if x = 0 then _ else _
        rw [if_neg h0]
        rfl
      · rw [hx]; simp [setQ, upd_self, hd]
      · simp [setQ, upd_self]
      · intro k' _
        have := I.qCount k
        simp only [setQ, upd_self]
        rw [this]
      · intro j hj; simp only [setQ, upd_ne _ _ _ _ hj]
    · simp only [setQ, setCo, upd_self]
    · exact F1.done
    · intro i x hxi
      obtain ⟨h1, h2⟩ := hfr i x hxi
      simp only [setQ, setCo, upd_ne _ _ _ _ h1, h2]
      exact ⟨trivial, trivial⟩
  · have hh : (s.q (.list k)).head ≠ 0 := by rw [I.qHead]; exact fun h => hx ((hd_eq_zero I _).1 h)
    have hr : (s.q (.list k)).rear ≠ 0 := by rw [I.qRear]; exact fun h => hx ((lastOr_eq_zero I _).1 h)
    let t := (s.q (.list k)).rear
    have ht : t = lastOr 0 (xs (.list k)) := I.qRear _
    have htm : t ∈ xs (.list k) := by rw [ht]; exact lastOr_mem' hx 0
    have htb : t ≠ b := (hfr _ t htm).1
    refine ⟨b, setQ (setPrev (setNext (setCo s1 b v) t b) b t) (.list k)
      ⟨(s.q (.list k)).head, b, (s.q (.list k)).count + 1⟩, upd own1 b (.inq (.list k)), gs1, ?_, ?_, ?_, ?_, ?_⟩
    · simp only [listPush, e1, Option.bind_some, hcl.1, hcl.2, hqq, hh, hr, if_false]
      rfl
    · refine Inv.congr (linkBack_inv I2 (.list k) b (Or.inl rfl) rfl rfl rfl ?_ ?_ ?_ ?_ ?_ ?_
        ?_ ?_) hout
      · refine ⟨?_, ?_, ?_⟩
        · simp only [setQ, setPrev, upd_self]; exact ht
        · simp only [setQ, setPrev, setNext, setCo, upd_self, upd_ne _ _ _ _ (Ne.symm htb)]; exact hcl.2
        · simp only [setQ, setPrev, setNext, setCo, upd_self, upd_ne _ _ _ _ (Ne.symm htb)]; exact hv
      · intro x hxb
        by_cases hxt : x = t
        · subst hxt; simp only [setQ, setPrev, setNext, upd_self, upd_ne _ _ _ _ hxb]
        · simp only [setQ, setPrev, setNext, upd_ne _ _ _ _ hxb, upd_ne _ _ _ _ hxt]
      · intro x hxb
        by_cases hxt : x = t
        · subst hxt; simp only [setQ, setPrev, setNext, upd_self, upd_ne _ _ _ _ hxb]
        · simp only [setQ, setPrev, setNext, upd_ne _ _ _ _ hxb, upd_ne _ _ _ _ hxt]
      · intro x hxb _
        rw [← ht]
        by_cases hxt : x = t
        · subst hxt; rw [if_pos rfl]; simp only [setQ, setPrev, setNext, upd_self, upd_ne _ _ _ _ hxb]
        · rw [if_neg hxt]; simp only [setQ, setPrev, setNext, upd_ne _ _ _ _ hxb, upd_ne _ _ _ _ hxt]
      · simp only [setQ, upd_self]
        rw [I.qHead, hd_append]
        cases h : xs (.list k) with
        | nil => exact absurd h hx
        | cons c cs => rfl
      · simp only [setQ, upd_self]
      · intro k' _
        have := I.qCount k
        simp only [setQ, upd_self]
        rw [this]
      · intro j hj; simp only [setQ, upd_ne _ _ _ _ hj]; rfl
    · simp only [setQ, setPrev, setNext, setCo, upd_self, upd_ne _ _ _ _ (Ne.symm htb)]
    · exact F1.done
    · intro i x hxi
      obtain ⟨h1, h2⟩ := hfr i x hxi
      by_cases hxt : x = t
      · subst hxt
        simp only [setQ, setPrev, setNext, setCo, upd_self, upd_ne _ _ _ _ h1, h2]
        exact ⟨trivial, trivial⟩
      · simp only [setQ, setPrev, setNext, setCo, upd_ne _ _ _ _ h1, upd_ne _ _ _ _ hxt, h2]
        exact ⟨trivial, trivial⟩

/-- `linkco_list_push_head`. -/
theorem listPushHead_spec {s out own gs xs} (I : Inv s out own gs xs) (p k v a : Nat) (hv : v ≠ 0) (ha : a ≠ 0)
    (hl : s.live a = false) :
    ∃ b s' own' gs', listPushHead s p k v a = some s' ∧
      Inv s' out own' gs' (upd xs (.list k) (b :: xs (.list k))) ∧ (s'.mem b).co = v ∧ s'.done = s.done ∧
      (∀ i x, x ∈ xs i → (s'.mem x).co = (s.mem x).co ∧ (s'.mem x).isSelect = (s.mem x).isSelect) := by
  obtain ⟨b, s1, own1, gs1, e1, I1, F1, hnq, hno, hb0, ho1⟩ := acquire_inv I p a ha hl
  have hob1 : own1 b = .out := (I1.out b).1 (Or.inl rfl)
  have hnq1 : ∀ i, own1 b ≠ .inq i := fun i h => by rw [hob1] at h; cases h
  have I2 := setCo_inv I1 b v hnq1
  have hcl := I1.cleanOut b hob1
  have hqq : (setCo s1 b v).q (.list k) = s.q (.list k) := congrFun F1.q _
  have hfr : ∀ i x, x ∈ xs i → x ≠ b ∧ s1.mem x = s.mem x := by
    intro i x hx
    have := (I.q i x).1 hx
    exact ⟨fun e => hnq i (e ▸ this), F1.mem i x this⟩
  have hout : ∀ x, out x ↔ x ≠ b ∧ (x = b ∨ out x) := by
    intro x
    by_cases h : x = b
    · subst h; simp [hno]
    · simp [h]
  by_cases hx : xs (.list k) = []
  · have hh : (s.q (.list k)).head = 0 := by rw [I.qHead, hx]; rfl
    have hr : (s.q (.list k)).rear = 0 := by rw [I.qRear, hx]; rfl
    refine ⟨b, setQ (setCo s1 b v) (.list k) ⟨b, b, (s.q (.list k)).count + 1⟩, upd own1 b (.inq (.list k)), gs1, ?_, ?_, ?_, ?_, ?_⟩
    · simp only [listPushHead, e1, if_neg hv, Option.bind_some, hqq, hh, hr]
      rfl
    · refine Inv.congr (linkFront_inv I2 (.list k) b (Or.inl rfl) rfl rfl rfl ?_ (fun _ _ => rfl) (fun _ _ => rfl) ?_ ?_ ?_
        ?_ ?_) hout
      · rw [hx]
        refine ⟨?_, ?_, ?_⟩
        · simp only [setQ, setCo, upd_self]; exact hcl.1
        · simp only [setQ, setCo, upd_self]; exact hcl.2
        · simp only [setQ, setCo, upd_self]; exact hv
      · intro x _ h0
        rw [hx]
        show _ = if x = 0 then _ else _
        rw [if_neg h0]
        rfl
      · simp [setQ, upd_self]
      · rw [hx]; simp [setQ, upd_self, lastOr]
      · intro k' _
        have := I.qCount k
        simp only [setQ, upd_self]
        rw [this]
      · intro j hj; simp only [setQ, upd_ne _ _ _ _ hj]
    · simp only [setQ, setCo, upd_self]
    · exact F1.done
    · intro i x hxi
      obtain ⟨h1, h2⟩ := hfr i x hxi
      simp only [setQ, setCo, upd_ne _ _ _ _ h1, h2]
      exact ⟨trivial, trivial⟩
  · have hh : (s.q (.list k)).head ≠ 0 := by rw [I.qHead]; exact fun h => hx ((hd_eq_zero I _).1 h)
    let t := (s.q (.list k)).head
    have ht : t = hd (xs (.list k)) 0 := I.qHead _
    have htm : t ∈ xs (.list k) := by rw [ht]; exact hd_mem hx 0
    have htb : t ≠ b := (hfr _ t htm).1
    refine ⟨b, setQ (setPrev (setNext (setCo s1 b v) b t) t b) (.list k)
      ⟨b, (s.q (.list k)).rear, (s.q (.list k)).count + 1⟩, upd own1 b (.inq (.list k)), gs1, ?_, ?_, ?_, ?_, ?_⟩
    · simp only [listPushHead, e1, if_neg hv, Option.bind_some, hqq, hh, if_false]
      rfl
    · refine Inv.congr (linkFront_inv I2 (.list k) b (Or.inl rfl) rfl rfl rfl ?_ ?_ ?_ ?_ ?_ ?_
        ?_ ?_) hout
      · refine ⟨?_, ?_, ?_⟩
        · simp only [setQ, setPrev, setNext, setCo, upd_self, upd_ne _ _ _ _ (Ne.symm htb)]; exact hcl.1
        · simp only [setQ, setPrev, setNext, setCo, upd_self, upd_ne _ _ _ _ (Ne.symm htb)]; exact ht
        · simp only [setQ, setPrev, setNext, setCo, upd_self, upd_ne _ _ _ _ (Ne.symm htb)]; exact hv
      · intro x hxb
        by_cases hxt : x = t
        · subst hxt; simp only [setQ, setPrev, setNext, upd_self, upd_ne _ _ _ _ hxb]
        · simp only [setQ, setPrev, setNext, upd_ne _ _ _ _ hxb, upd_ne _ _ _ _ hxt]
      · intro x hxb
        by_cases hxt : x = t
        · subst hxt; simp only [setQ, setPrev, setNext, upd_self, upd_ne _ _ _ _ hxb]
        · simp only [setQ, setPrev, setNext, upd_ne _ _ _ _ hxb, upd_ne _ _ _ _ hxt]
      · intro x hxb _
        rw [← ht]
        by_cases hxt : x = t
        · subst hxt; rw [if_pos rfl]; simp only [setQ, setPrev, setNext, upd_self]
        · rw [if_neg hxt]; simp only [setQ, setPrev, setNext, upd_ne _ _ _ _ hxb, upd_ne _ _ _ _ hxt]
      · simp only [setQ, upd_self]
      · simp only [setQ, upd_self]
        rw [I.qRear]
        cases h : xs (.list k) with
        | nil => exact absurd h hx
        | cons c cs => rfl
      · intro k' _
        have := I.qCount k
        simp only [setQ, upd_self]
        rw [this]
      · intro j hj; simp only [setQ, upd_ne _ _ _ _ hj]; rfl
    · simp only [setQ, setPrev, setNext, setCo, upd_self, upd_ne _ _ _ _ (Ne.symm htb)]
    · exact F1.done
    · intro i x hxi
      obtain ⟨h1, h2⟩ := hfr i x hxi
      by_cases hxt : x = t
      · subst hxt
        simp only [setQ, setPrev, setNext, setCo, upd_self, upd_ne _ _ _ _ h1, h2]
        exact ⟨trivial, trivial⟩
      · simp only [setQ, setPrev, setNext, setCo, upd_ne _ _ _ _ h1, upd_ne _ _ _ _ hxt, h2]
        exact ⟨trivial, trivial⟩

theorem listPop_nil {s out own gs xs} (I : Inv s out own gs xs) (p k : Nat) (hx : xs (.list k) = []) :
    listPop s p k = some (0, s) := by
  have hh : (s.q (.list k)).head = 0 := by rw [I.qHead, hx]; rfl
  have hr : (s.q (.list k)).rear = 0 := by rw [I.qRear, hx]; rfl
  simp [listPop, hh, hr]

/-- `linkco_list_pop`. -/
theorem listPop_spec {s out own gs xs} (I : Inv s out own gs xs) (p k b : Nat) (ys : List Nat)
    (hx : xs (.list k) = b :: ys) :
    ∃ s' own' gs', listPop s p k = some ((s.mem b).co, s') ∧
      Inv s' out own' gs' (upd xs (.list k) ys) ∧ s'.done = s.done ∧
      (∀ i x, x ∈ xs i → x ≠ b → (s'.mem x).co = (s.mem x).co ∧ (s'.mem x).isSelect = (s.mem x).isSelect) := by
  have hbm : b ∈ xs (.list k) := by rw [hx]; simp
  have hob := (I.q _ b).1 hbm
  have hb0 : b ≠ 0 := I.q_ne0 hbm
  have hnout : ¬ out b := fun h => by rw [(I.out b).1 h] at hob; cases hob
  have hh : (s.q (.list k)).head = b := by rw [I.qHead, hx]; rfl
  have hco : (s.mem b).co ≠ 0 := I.qCo _ b hbm
  have hdl := I.qDL (.list k)
  rw [hx] at hdl
  have hcnt : (s.q (.list k)).count = ys.length + 1 := by rw [I.qCount, hx]; rfl
  have hnd := I.qNd (.list k)
  rw [hx] at hnd
  have hby : b ∉ ys := (List.nodup_cons.1 hnd).1
  have hnx : (s.mem b).next = hd ys 0 := hdl.2.1
  have hpv : (s.mem b).prev = 0 := hdl.1
  have hout : ∀ x, out x ↔ x ≠ b ∧ (x = b ∨ out x) := by
    intro x
    by_cases h : x = b
    · subst h; simp [hnout]
    · simp [h]
  -- the state handed to `rti_release_linkco`
  obtain ⟨s1, e1, I1, hd1, hfr1⟩ : ∃ s1, (listPop s p k = (release s1 p b).map fun s2 => ((s.mem b).co, s2)) ∧
      Inv s1 (fun x => x = b ∨ out x) (upd own b .out) gs (upd xs (.list k) ys) ∧ s1.done = s.done ∧
      (∀ x, (s1.mem x).co = (s.mem x).co ∧ (s1.mem x).isSelect = (s.mem x).isSelect) := by
    cases ys with
    | nil =>
      have hnx0 : (s.mem b).next = 0 := hnx
      refine ⟨setNext (setQ s (.list k) ⟨0, 0, (s.q (.list k)).count - 1⟩) b 0, ?_, ?_, rfl, ?_⟩
      · simp only [listPop, hh, hb0, if_false, hco, hnx0, if_true, hcnt]
        rfl
      · refine unlink_inv I (.list k) [] [] b hx rfl rfl rfl ?_ ?_ ?_ ?_ ?_ ?_ ?_ ?_
        · simp only [setNext, setQ, upd_self]; exact ⟨hpv, trivial⟩
        · intro x
          by_cases h : x = b
          · subst h; simp only [setNext, setQ, upd_self]
          · simp only [setNext, setQ, upd_ne _ _ _ _ h]
        · intro x h h0
          show _ = if x = 0 then _ else _
          rw [if_neg h0]
          simp only [setNext, setQ, upd_ne _ _ _ _ h]
        · intro x h h0
          show _ = if x = 0 then _ else _
          rw [if_neg h0]
          simp only [setNext, setQ, upd_ne _ _ _ _ h]
        · simp only [setNext, setQ, upd_self]; rfl
        · simp only [setNext, setQ, upd_self]; rfl
        · intro k' _
          simp only [setNext, setQ, upd_self, hcnt]; rfl
        · intro j hj; simp only [setNext, setQ, upd_ne _ _ _ _ hj]
      · intro x
        by_cases h : x = b
        · subst h; simp only [setNext, setQ, upd_self]; exact ⟨trivial, trivial⟩
        · simp only [setNext, setQ, upd_ne _ _ _ _ h]; exact ⟨trivial, trivial⟩
    | cons c ys =>
      have hnx0 : (s.mem b).next = c := hnx
      have hc0 : c ≠ 0 := I.q_ne0 (i := .list k) (by rw [hx]; simp)
      have hcb : c ≠ b := fun e => hby (by simp [e])
      refine ⟨setNext (setQ (setPrev s c 0) (.list k) ⟨c, (s.q (.list k)).rear, (s.q (.list k)).count - 1⟩) b 0,
        ?_, ?_, rfl, ?_⟩
      · simp only [listPop, hh, hb0, if_false, hco, hnx0, hc0, Option.bind_some]
        have : ((setQ (setPrev s c 0) (.list k) ⟨c, (s.q (.list k)).rear, (s.q (.list k)).count - 1⟩).mem b).co =
            (s.mem b).co := by
          simp only [setQ, setPrev, upd_ne _ _ _ _ (Ne.symm hcb)]
        rw [this]
      · refine unlink_inv I (.list k) [] (c :: ys) b hx rfl rfl rfl ?_ ?_ ?_ ?_ ?_ ?_ ?_ ?_
        · simp only [setNext, setQ, setPrev, upd_self, upd_ne _ _ _ _ (Ne.symm hcb)]; exact ⟨hpv, trivial⟩
        · intro x
          by_cases h : x = b
          · subst h; simp only [setNext, setQ, setPrev, upd_self, upd_ne _ _ _ _ (Ne.symm hcb)]
          · by_cases h2 : x = c
            · subst h2; simp only [setNext, setQ, setPrev, upd_self, upd_ne _ _ _ _ hcb]
            · simp only [setNext, setQ, setPrev, upd_ne _ _ _ _ h, upd_ne _ _ _ _ h2]
        · intro x h h0
          show _ = if x = c then _ else _
          by_cases h2 : x = c
          · subst h2; rw [if_pos rfl]; simp only [setNext, setQ, setPrev, upd_self, upd_ne _ _ _ _ hcb]; rfl
          · rw [if_neg h2]; simp only [setNext, setQ, setPrev, upd_ne _ _ _ _ h, upd_ne _ _ _ _ h2]
        · intro x h h0
          show _ = if x = 0 then _ else _
          rw [if_neg h0]
          by_cases h2 : x = c
          · subst h2; simp only [setNext, setQ, setPrev, upd_self, upd_ne _ _ _ _ hcb]
          · simp only [setNext, setQ, setPrev, upd_ne _ _ _ _ h, upd_ne _ _ _ _ h2]
        · simp only [setNext, setQ, upd_self]; rfl
        · simp only [setNext, setQ, upd_self]; rw [I.qRear, hx]; rfl
        · intro k' _
          simp only [setNext, setQ, upd_self, hcnt]; rfl
        · intro j hj; simp only [setNext, setQ, upd_ne _ _ _ _ hj]; rfl
      · intro x
        by_cases h : x = b
        · subst h; simp only [setNext, setQ, setPrev, upd_self, upd_ne _ _ _ _ (Ne.symm hcb)]; exact ⟨trivial, trivial⟩
        · by_cases h2 : x = c
          · subst h2; simp only [setNext, setQ, setPrev, upd_self, upd_ne _ _ _ _ hcb]; exact ⟨trivial, trivial⟩
          · simp only [setNext, setQ, setPrev, upd_ne _ _ _ _ h, upd_ne _ _ _ _ h2]; exact ⟨trivial, trivial⟩
  obtain ⟨s2, own2, gs2, e2, I2, F2, ho2⟩ := release_inv I1 p b (Or.inl rfl)
  refine ⟨s2, own2, gs2, by rw [e1, e2]; rfl, I2.congr hout, F2.done.trans hd1, fun i x hxi hne => ?_⟩
  have hox : upd own b .out x = .inq i := by rw [upd_ne _ _ _ _ hne]; exact (I.q i x).1 hxi
  rw [F2.mem i x hox]
  exact hfr1 x

/-- `linkco_list_remove` of the only entry. -/
theorem listRemove_one {s out own gs xs} (I : Inv s out own gs xs) (p k b : Nat) (hx : xs (.list k) = [b]) :
    ∃ s' own' gs', listRemove s p k b = some s' ∧ Inv s' out own' gs' (upd xs (.list k) []) ∧ s'.done = s.done ∧
      (∀ i x, x ∈ xs i → x ≠ b → (s'.mem x).co = (s.mem x).co ∧ (s'.mem x).isSelect = (s.mem x).isSelect) := by
  have hbm : b ∈ xs (.list k) := by rw [hx]; simp
  have hob := (I.q _ b).1 hbm
  have hnout : ¬ out b := fun h => by rw [(I.out b).1 h] at hob; cases hob
  have hh : (s.q (.list k)).head = b := by rw [I.qHead, hx]; rfl
  have hr : (s.q (.list k)).rear = b := by rw [I.qRear, hx]; rfl
  have hdl := I.qDL (.list k)
  rw [hx] at hdl
  have hcnt : (s.q (.list k)).count = 1 := by rw [I.qCount, hx]; rfl
  have hnx : (s.mem b).next = 0 := hdl.2.1
  have hpv : (s.mem b).prev = 0 := hdl.1
  have hout : ∀ x, out x ↔ x ≠ b ∧ (x = b ∨ out x) := by
    intro x
    by_cases h : x = b
    · subst h; simp [hnout]
    · simp [h]
  let s1 := setQ (setQ (setQ s (.list k) ⟨0, b, 1⟩) (.list k) ⟨0, 0, 1⟩) (.list k) ⟨0, 0, 0⟩
  have I1 : Inv s1 (fun x => x = b ∨ out x) (upd own b .out) gs (upd xs (.list k) []) := by
    refine unlink_inv I (.list k) [] [] b hx rfl rfl rfl ⟨hpv, hnx⟩ (fun _ => rfl) ?_ ?_ ?_ ?_ ?_ ?_
    · intro x _ h0
      show _ = if x = 0 then _ else _
      rw [if_neg h0]; rfl
    · intro x _ h0
      show _ = if x = 0 then _ else _
      rw [if_neg h0]; rfl
    · simp only [s1, setQ, upd_self]; rfl
    · simp only [s1, setQ, upd_self]; rfl
    · intro k' _; simp only [s1, setQ, upd_self]; rfl
    · intro j hj; simp only [s1, setQ, upd_ne _ _ _ _ hj]
  obtain ⟨s2, own2, gs2, e2, I2, F2, ho2⟩ := release_inv I1 p b (Or.inl rfl)
  refine ⟨s2, own2, gs2, ?_, I2.congr hout, F2.done.trans rfl, fun i x hxi hne => ?_⟩
  · rw [← e2]
    simp [listRemove, hh, hr, hnx, hpv, hcnt, setQ, upd_self, s1]
  · have hox : upd own b .out x = .inq i := by rw [upd_ne _ _ _ _ hne]; exact (I.q i x).1 hxi
    rw [F2.mem i x hox]
    exact ⟨rfl, rfl⟩

/-- `linkco_list_remove` of any entry of a list of two or more fails the assertions of `rti_release_linkco`. -/
theorem listRemove_abort {s out own gs xs} (I : Inv s out own gs xs) (p k b : Nat) (hb : b ∈ xs (.list k))
    (hx : xs (.list k) ≠ [b]) : listRemove s p k b = none := by
  obtain ⟨l, r, hlr⟩ := List.append_of_mem hb
  have hdl := I.qDL (.list k)
  rw [hlr, DL_append] at hdl
  have hnd := I.qNd (.list k)
  rw [hlr] at hnd
  have hnd2 := List.nodup_append.1 hnd
  have hpv : (s.mem b).prev = lastOr 0 l := hdl.2.1
  have hnx : (s.mem b).next = hd r 0 := hdl.2.2.1
  have hl0 : l ≠ [] → lastOr 0 l ≠ 0 ∧ lastOr 0 l ≠ b := fun h => by
    have hm := lastOr_mem' h 0
    exact ⟨I.q_ne0 (i := .list k) (by rw [hlr]; simp [hm]), fun e => hnd2.2.2 _ hm b (by simp) e⟩
  have hr0 : r ≠ [] → hd r 0 ≠ 0 ∧ hd r 0 ≠ b := fun h => by
    have hm := hd_mem h 0
    exact ⟨I.q_ne0 (i := .list k) (by rw [hlr]; simp [hm]), fun e => (List.nodup_cons.1 hnd2.2.1).1 (e ▸ hm)⟩
  have hrel : ∀ t : St, ((t.mem b).prev ≠ 0 ∨ (t.mem b).next ≠ 0) → release t p b = none := by
    intro t ht; unfold release; rw [if_pos ht]
  unfold listRemove
  simp only [hpv, hnx]
  by_cases hl : l = []
  · subst hl
    have hr : r ≠ [] := by rintro rfl; exact hx hlr
    obtain ⟨h1, h2⟩ := hr0 hr
    have hh : (s.q (.list k)).head = b := by rw [I.qHead, hlr]; rfl
    simp only [lastOr, if_true, hh, ne_eq, not_true_eq_false, if_false, Option.bind_some, h1]
    refine hrel _ (Or.inr ?_)
    simp only [setQ, setPrev, upd_ne _ _ _ _ (Ne.symm h2)]
    rw [hnx]; exact h1
  · obtain ⟨h1, h2⟩ := hl0 hl
    simp only [h1, if_false, Option.bind_some]
    by_cases hr : r = []
    · subst hr
      have hrr : (s.q (.list k)).rear = b := by rw [I.qRear, hlr, lastOr_snoc]
      have : ((setNext s (lastOr 0 l) (hd [] 0)).q (.list k)).rear = b := hrr
      rw [if_pos (show hd ([] : List Nat) 0 = 0 from rfl), if_neg (fun h => h this), Option.bind_some]
      refine hrel _ (Or.inl ?_)
      simp only [setQ, setNext, upd_ne _ _ _ _ (Ne.symm h2)]
      rw [hpv]; exact h1
    · obtain ⟨h3, h4⟩ := hr0 hr
      simp only [h3, if_false, Option.bind_some]
      refine hrel _ (Or.inl ?_)
      simp only [setQ, setNext, setPrev, upd_ne _ _ _ _ (Ne.symm h2), upd_ne _ _ _ _ (Ne.symm h4)]
      rw [hpv]; exact h1

/-- `waitq_push`. -/
theorem waitPush_spec {s out own gs xs} (I : Inv s out own gs xs) (k b v : Nat) (sel : Bool) (hv : v ≠ 0) (hb : out b) :
    ∃ s' own', waitPush s k b v sel = some s' ∧
      Inv s' (fun x => x ≠ b ∧ out x) own' gs (upd xs (.wait k) (xs (.wait k) ++ [b])) ∧ (s'.mem b).co = v ∧
      (s'.mem b).isSelect = sel ∧ s'.done = s.done ∧
      (∀ i x, x ∈ xs i → (s'.mem x).co = (s.mem x).co ∧ (s'.mem x).isSelect = (s.mem x).isSelect) := by
  have hob : own b = .out := (I.out b).1 hb
  have hnq : ∀ i, own b ≠ .inq i := fun i h => by rw [hob] at h; cases h
  have I2 := setSelect_inv (setCo_inv I b v hnq) b sel
  have hcl := I.cleanOut b hob
  let s2 := setSelect (setCo s b v) b sel
  have hm2 : s2.mem b = ⟨v, (s.mem b).prev, (s.mem b).next, sel⟩ := by
    simp only [s2, setSelect, setCo, upd_self]
  have hm2' : ∀ x, x ≠ b → s2.mem x = s.mem x := fun x h => by
    simp only [s2, setSelect, setCo, upd_ne _ _ _ _ h]
  have hfr : ∀ i x, x ∈ xs i → x ≠ b := fun i x hx e => hnq i (e ▸ (I.q i x).1 hx)
  by_cases hx : xs (.wait k) = []
  · have hh : (s.q (.wait k)).head = 0 := by rw [I.qHead, hx]; rfl
    have hr : (s.q (.wait k)).rear = 0 := by rw [I.qRear, hx]; rfl
    refine ⟨setQ s2 (.wait k) ⟨b, b, (s.q (.wait k)).count⟩, upd own b (.inq (.wait k)), ?_, ?_, ?_, ?_, rfl, ?_⟩
    · have h2h : (s2.q (.wait k)).head = 0 := hh
      have h2r : (s2.q (.wait k)).rear = 0 := hr
      have hm2p : (s2.mem b).prev = 0 := by rw [hm2]; exact hcl.1
      have hm2n : (s2.mem b).next = 0 := by rw [hm2]; exact hcl.2
      show (if (s2.mem b).next ≠ 0 ∨ (s2.mem b).prev ≠ 0 then none else if (s2.q (.wait k)).head = 0 then
        if (s2.q (.wait k)).rear ≠ 0 then none else some (setQ s2 (.wait k) ⟨b, b, (s2.q (.wait k)).count⟩)
        else _) = _
      rw [if_neg (by rw [hm2p, hm2n]; simp), if_pos h2h, if_neg (fun h => h h2r)]
      rfl
    · refine linkBack_inv I2 (.wait k) b hb rfl rfl rfl ?_ (fun _ _ => rfl) (fun _ _ => rfl) ?_ ?_ ?_ ?_ ?_
      · rw [hx]
        show (s2.mem b).prev = 0 ∧ (s2.mem b).next = 0 ∧ (s2.mem b).co ≠ 0
        rw [hm2]; exact ⟨hcl.1, hcl.2, hv⟩
      · intro x _ h0
        rw [hx]
        show _ = if x = 0 then _ else _
        rw [if_neg h0]
        rfl
      · rw [hx]; simp [setQ, upd_self, hd]
      · simp [setQ, upd_self]
      · intro k' h; cases h
      · intro j hj; simp only [setQ, upd_ne _ _ _ _ hj]; rfl
    · show (s2.mem b).co = v
      rw [hm2]
    · show (s2.mem b).isSelect = sel
      rw [hm2]
    · intro i x hxi
      show (s2.mem x).co = _ ∧ (s2.mem x).isSelect = _
      rw [hm2' x (hfr i x hxi)]; exact ⟨rfl, rfl⟩
  · have hh : (s.q (.wait k)).head ≠ 0 := by rw [I.qHead]; exact fun h => hx ((hd_eq_zero I _).1 h)
    have hr : (s.q (.wait k)).rear ≠ 0 := by rw [I.qRear]; exact fun h => hx ((lastOr_eq_zero I _).1 h)
    let t := (s.q (.wait k)).rear
    have ht : t = lastOr 0 (xs (.wait k)) := I.qRear _
    have htm : t ∈ xs (.wait k) := by rw [ht]; exact lastOr_mem' hx 0
    have htb : t ≠ b := hfr _ t htm
    refine ⟨setQ (setPrev (setNext s2 t b) b t) (.wait k) ⟨(s.q (.wait k)).head, b, (s.q (.wait k)).count⟩,
      upd own b (.inq (.wait k)), ?_, ?_, ?_, ?_, rfl, ?_⟩
    · have h2h : (s2.q (.wait k)).head ≠ 0 := hh
      have h2r : (s2.q (.wait k)).rear ≠ 0 := hr
      have hm2p : (s2.mem b).prev = 0 := by rw [hm2]; exact hcl.1
      have hm2n : (s2.mem b).next = 0 := by rw [hm2]; exact hcl.2
      show (if (s2.mem b).next ≠ 0 ∨ (s2.mem b).prev ≠ 0 then none else if (s2.q (.wait k)).head = 0 then
        _ else if (s2.q (.wait k)).rear = 0 then none else some (setQ (setPrev (setNext s2 (s2.q (.wait k)).rear b) b
          (s2.q (.wait k)).rear) (.wait k) ⟨(s2.q (.wait k)).head, b, (s2.q (.wait k)).count⟩)) = _
      rw [if_neg (by rw [hm2p, hm2n]; simp), if_neg h2h, if_neg h2r]
      rfl
    · refine linkBack_inv I2 (.wait k) b hb rfl rfl rfl ?_ ?_ ?_ ?_ ?_ ?_ ?_ ?_
      · refine ⟨?_, ?_, ?_⟩
        · simp only [setQ, setPrev, upd_self]; exact ht
        · simp only [setQ, setPrev, setNext, upd_self, upd_ne _ _ _ _ (Ne.symm htb)]; rw [hm2]; exact hcl.2
        · simp only [setQ, setPrev, setNext, upd_self, upd_ne _ _ _ _ (Ne.symm htb)]; rw [hm2]; exact hv
      · intro x hxb
        show _ = (s2.mem x).co
        by_cases hxt : x = t
        · subst hxt; simp only [setQ, setPrev, setNext, upd_self, upd_ne _ _ _ _ hxb]
        · simp only [setQ, setPrev, setNext, upd_ne _ _ _ _ hxb, upd_ne _ _ _ _ hxt]
      · intro x hxb
        show _ = (s2.mem x).prev
        by_cases hxt : x = t
        · subst hxt; simp only [setQ, setPrev, setNext, upd_self, upd_ne _ _ _ _ hxb]
        · simp only [setQ, setPrev, setNext, upd_ne _ _ _ _ hxb, upd_ne _ _ _ _ hxt]
      · intro x hxb _
        show _ = if _ then _ else (s2.mem x).next
        rw [← ht]
        by_cases hxt : x = t
        · subst hxt; rw [if_pos rfl]; simp only [setQ, setPrev, setNext, upd_self, upd_ne _ _ _ _ hxb]
        · rw [if_neg hxt]; simp only [setQ, setPrev, setNext, upd_ne _ _ _ _ hxb, upd_ne _ _ _ _ hxt]
      · simp only [setQ, upd_self]
        rw [I.qHead, hd_append]
        cases h : xs (.wait k) with
        | nil => exact absurd h hx
        | cons c cs => rfl
      · simp only [setQ, upd_self]
      · intro k' h; cases h
      · intro j hj; simp only [setQ, upd_ne _ _ _ _ hj]; rfl
    · simp only [setQ, setPrev, setNext, upd_self, upd_ne _ _ _ _ (Ne.symm htb)]; rw [hm2]
    · simp only [setQ, setPrev, setNext, upd_self, upd_ne _ _ _ _ (Ne.symm htb)]; rw [hm2]
    · intro i x hxi
      have h1 := hfr i x hxi
      by_cases hxt : x = t
      · subst hxt
        simp only [setQ, setPrev, setNext, upd_self, upd_ne _ _ _ _ h1, hm2' _ h1]
        exact ⟨trivial, trivial⟩
      · simp only [setQ, setPrev, setNext, upd_ne _ _ _ _ h1, upd_ne _ _ _ _ hxt, hm2' _ h1]
        exact ⟨trivial, trivial⟩

/-- `waitq_remove` of a queued entry. -/
theorem waitRemove_spec {s out own gs xs} (I : Inv s out own gs xs) (k b : Nat) (l r : List Nat)
    (hx : xs (.wait k) = l ++ b :: r) :
    Inv (waitRemove s k b) (fun x => x = b ∨ out x) (upd own b .out) gs (upd xs (.wait k) (l ++ r)) ∧
      (waitRemove s k b).done = s.done ∧
      (∀ x, ((waitRemove s k b).mem x).co = (s.mem x).co ∧ ((waitRemove s k b).mem x).isSelect = (s.mem x).isSelect) := by
  have hdl := I.qDL (.wait k)
  rw [hx, DL_append] at hdl
  have hnd := I.qNd (.wait k)
  rw [hx] at hnd
  have hnd2 := List.nodup_append.1 hnd
  have hpv : (s.mem b).prev = lastOr 0 l := hdl.2.1
  have hnx : (s.mem b).next = hd r 0 := hdl.2.2.1
  have hl0 : l ≠ [] → lastOr 0 l ≠ 0 ∧ lastOr 0 l ≠ b := fun h => by
    have hm := lastOr_mem' h 0
    exact ⟨I.q_ne0 (i := .wait k) (by rw [hx]; simp [hm]), fun e => hnd2.2.2 _ hm b (by simp) e⟩
  have hr0 : r ≠ [] → hd r 0 ≠ 0 ∧ hd r 0 ≠ b := fun h => by
    have hm := hd_mem h 0
    exact ⟨I.q_ne0 (i := .wait k) (by rw [hx]; simp [hm]), fun e => (List.nodup_cons.1 hnd2.2.1).1 (e ▸ hm)⟩
  by_cases hl : l = []
  · subst hl
    have hpv0 : (s.mem b).prev = 0 := hpv
    by_cases hr : r = []
    · subst hr
      have hnx0 : (s.mem b).next = 0 := hnx
      have hh : (s.q (.wait k)).head = b := by rw [I.qHead, hx]; rfl
      have e : waitRemove s k b = setQ s (.wait k) { s.q (.wait k) with head := 0, rear := 0 } := by
        simp only [waitRemove, hpv0, hnx0, ne_eq, not_true_eq_false, if_false, hh, if_true]
      rw [e]
      refine ⟨?_, rfl, fun _ => ⟨rfl, rfl⟩⟩
      refine unlink_inv I (.wait k) [] [] b hx rfl rfl rfl ⟨hpv0, hnx0⟩ (fun _ => rfl) ?_ ?_ ?_ ?_ ?_ ?_
      · intro x _ h0
        show _ = if x = 0 then _ else _
        rw [if_neg h0]; rfl
      · intro x _ h0
        show _ = if x = 0 then _ else _
        rw [if_neg h0]; rfl
      · simp only [setQ, upd_self]; rfl
      · simp only [setQ, upd_self]; rfl
      · intro k' h; cases h
      · intro j hj; simp only [setQ, upd_ne _ _ _ _ hj]
    · obtain ⟨h3, h4⟩ := hr0 hr
      have e : waitRemove s k b = setNext (setQ (setPrev s (hd r 0) 0) (.wait k)
          { s.q (.wait k) with head := hd r 0 }) b 0 := by
        simp only [waitRemove, hpv0, hnx, ne_eq, not_true_eq_false, if_false, h3, not_false_eq_true, if_true]
      rw [e]
      have hmx : ∀ x, x ≠ b → x ≠ hd r 0 → (setNext (setQ (setPrev s (hd r 0) 0) (.wait k)
          { s.q (.wait k) with head := hd r 0 }) b 0).mem x = s.mem x := fun x h1 h2 => by
        simp only [setNext, setQ, setPrev, upd_ne _ _ _ _ h1, upd_ne _ _ _ _ h2]
      have hmc : (setNext (setQ (setPrev s (hd r 0) 0) (.wait k)
          { s.q (.wait k) with head := hd r 0 }) b 0).mem (hd r 0) = { s.mem (hd r 0) with prev := 0 } := by
        simp only [setNext, setQ, setPrev, upd_ne _ _ _ _ h4, upd_self]
      have hmb : (setNext (setQ (setPrev s (hd r 0) 0) (.wait k)
          { s.q (.wait k) with head := hd r 0 }) b 0).mem b = { s.mem b with next := 0 } := by
        simp only [setNext, setQ, setPrev, upd_ne _ _ _ _ (Ne.symm h4), upd_self]
      refine ⟨?_, rfl, ?_⟩
      · refine unlink_inv I (.wait k) [] r b hx rfl rfl rfl ?_ ?_ ?_ ?_ ?_ ?_ ?_ ?_
        · rw [hmb]; exact ⟨hpv0, rfl⟩
        · intro x
          by_cases h1 : x = b
          · subst h1; rw [hmb]
          · by_cases h2 : x = hd r 0
            · rw [h2, hmc]
            · rw [hmx x h1 h2]
        · intro x h1 _
          by_cases h2 : x = hd r 0
          · rw [if_pos h2, h2, hmc]; rfl
          · rw [if_neg h2, hmx x h1 h2]
        · intro x h1 h0
          show _ = if x = 0 then _ else _
          rw [if_neg h0]
          by_cases h2 : x = hd r 0
          · rw [h2, hmc]
          · rw [hmx x h1 h2]
        · simp only [setNext, setQ, upd_self]; rfl
        · simp only [setNext, setQ, upd_self]
          rw [I.qRear, hx]
          show lastOr b r = lastOr 0 r
          cases r with
          | nil => exact absurd rfl hr
          | cons c r => rfl
        · intro k' h; cases h
        · intro j hj; simp only [setNext, setQ, upd_ne _ _ _ _ hj]; rfl
      · intro x
        by_cases h1 : x = b
        · subst h1; rw [hmb]; exact ⟨rfl, rfl⟩
        · by_cases h2 : x = hd r 0
          · rw [h2, hmc]; exact ⟨rfl, rfl⟩
          · rw [hmx x h1 h2]; exact ⟨rfl, rfl⟩
  · obtain ⟨h1, h2⟩ := hl0 hl
    by_cases hr : r = []
    · subst hr
      have hnx0 : (s.mem b).next = 0 := hnx
      have e : waitRemove s k b = setPrev (setQ (setNext s (lastOr 0 l) 0) (.wait k)
          { s.q (.wait k) with rear := lastOr 0 l }) b 0 := by
        simp only [waitRemove, hpv, hnx0, ne_eq, not_true_eq_false, if_false, h1, not_false_eq_true, if_true]
      rw [e]
      have hmx : ∀ x, x ≠ b → x ≠ lastOr 0 l → (setPrev (setQ (setNext s (lastOr 0 l) 0) (.wait k)
          { s.q (.wait k) with rear := lastOr 0 l }) b 0).mem x = s.mem x := fun x h3 h4 => by
        simp only [setNext, setQ, setPrev, upd_ne _ _ _ _ h3, upd_ne _ _ _ _ h4]
      have hmc : (setPrev (setQ (setNext s (lastOr 0 l) 0) (.wait k)
          { s.q (.wait k) with rear := lastOr 0 l }) b 0).mem (lastOr 0 l) = { s.mem (lastOr 0 l) with next := 0 } := by
        simp only [setNext, setQ, setPrev, upd_ne _ _ _ _ h2, upd_self]
      have hmb : (setPrev (setQ (setNext s (lastOr 0 l) 0) (.wait k)
          { s.q (.wait k) with rear := lastOr 0 l }) b 0).mem b = { s.mem b with prev := 0 } := by
        simp only [setNext, setQ, setPrev, upd_ne _ _ _ _ (Ne.symm h2), upd_self]
      refine ⟨?_, rfl, ?_⟩
      · refine unlink_inv I (.wait k) l [] b hx rfl rfl rfl ?_ ?_ ?_ ?_ ?_ ?_ ?_ ?_
        · rw [hmb]; exact ⟨rfl, hnx0⟩
        · intro x
          by_cases h3 : x = b
          · subst h3; rw [hmb]
          · by_cases h4 : x = lastOr 0 l
            · rw [h4, hmc]
            · rw [hmx x h3 h4]
        · intro x h3 h0
          show _ = if x = 0 then _ else _
          rw [if_neg h0]
          by_cases h4 : x = lastOr 0 l
          · rw [h4, hmc]
          · rw [hmx x h3 h4]
        · intro x h3 _
          by_cases h4 : x = lastOr 0 l
          · rw [if_pos h4, h4, hmc]; rfl
          · rw [if_neg h4, hmx x h3 h4]
        · simp only [setPrev, setNext, setQ, upd_self]
          rw [I.qHead, hx, hd_append, hd_append]
          cases l with
          | nil => exact absurd rfl hl
          | cons c l => rfl
        · simp only [setPrev, setNext, setQ, upd_self]; rw [List.append_nil]
        · intro k' h; cases h
        · intro j hj; simp only [setPrev, setNext, setQ, upd_ne _ _ _ _ hj]
      · intro x
        by_cases h3 : x = b
        · subst h3; rw [hmb]; exact ⟨rfl, rfl⟩
        · by_cases h4 : x = lastOr 0 l
          · rw [h4, hmc]; exact ⟨rfl, rfl⟩
          · rw [hmx x h3 h4]; exact ⟨rfl, rfl⟩
    · obtain ⟨h3, h4⟩ := hr0 hr
      have hlr : lastOr 0 l ≠ hd r 0 := fun e =>
        hnd2.2.2 _ (lastOr_mem' hl 0) (hd r 0) (List.mem_cons_of_mem _ (hd_mem hr 0)) e
      let s' := setPrev (setNext (setPrev (setNext s (lastOr 0 l) (hd r 0)) (hd r 0) (lastOr 0 l)) b 0) b 0
      have e : waitRemove s k b = s' := by
        simp only [waitRemove, hpv, hnx, ne_eq, if_true, h1, h3, not_false_eq_true]
        rfl
      rw [e]
      have hmx : ∀ x, x ≠ b → x ≠ lastOr 0 l → x ≠ hd r 0 → s'.mem x = s.mem x := fun x h5 h6 h7 => by
        simp only [s', setNext, setPrev, upd_ne _ _ _ _ h5, upd_ne _ _ _ _ h6, upd_ne _ _ _ _ h7]
      have hml : s'.mem (lastOr 0 l) = { s.mem (lastOr 0 l) with next := hd r 0 } := by
        simp only [s', setNext, setPrev, upd_ne _ _ _ _ h2, upd_ne _ _ _ _ hlr, upd_self]
      have hmr : s'.mem (hd r 0) = { s.mem (hd r 0) with prev := lastOr 0 l } := by
        simp only [s', setNext, setPrev, upd_ne _ _ _ _ h4, upd_ne _ _ _ _ (Ne.symm hlr), upd_self]
      have hmb : s'.mem b = { s.mem b with prev := 0, next := 0 } := by
        simp only [s', setNext, setPrev, upd_ne _ _ _ _ (Ne.symm h2), upd_ne _ _ _ _ (Ne.symm h4), upd_self]
      refine ⟨?_, rfl, ?_⟩
      · refine unlink_inv I (.wait k) l r b hx rfl rfl rfl ?_ ?_ ?_ ?_ ?_ ?_ ?_ ?_
        · rw [hmb]; exact ⟨rfl, rfl⟩
        · intro x
          by_cases h5 : x = b
          · subst h5; rw [hmb]
          · by_cases h6 : x = lastOr 0 l
            · rw [h6, hml]
            · by_cases h7 : x = hd r 0
              · rw [h7, hmr]
              · rw [hmx x h5 h6 h7]
        · intro x h5 _
          by_cases h7 : x = hd r 0
          · rw [if_pos h7, h7, hmr]
          · rw [if_neg h7]
            by_cases h6 : x = lastOr 0 l
            · rw [h6, hml]
            · rw [hmx x h5 h6 h7]
        · intro x h5 _
          by_cases h6 : x = lastOr 0 l
          · rw [if_pos h6, h6, hml]
          · rw [if_neg h6]
            by_cases h7 : x = hd r 0
            · rw [h7, hmr]
            · rw [hmx x h5 h6 h7]
        · show (s.q (.wait k)).head = _
          rw [I.qHead, hx, hd_append, hd_append]
          cases l with
          | nil => exact absurd rfl hl
          | cons c l => rfl
        · show (s.q (.wait k)).rear = _
          rw [I.qRear, hx, lastOr_append, lastOr_append]
          show lastOr b r = _
          cases r with
          | nil => exact absurd rfl hr
          | cons c r => rfl
        · intro k' h; cases h
        · intro j hj; rfl
      · intro x
        by_cases h5 : x = b
        · subst h5; rw [hmb]; exact ⟨rfl, rfl⟩
        · by_cases h6 : x = lastOr 0 l
          · rw [h6, hml]; exact ⟨rfl, rfl⟩
          · by_cases h7 : x = hd r 0
            · rw [h7, hmr]; exact ⟨rfl, rfl⟩
            · rw [hmx x h5 h6 h7]; exact ⟨rfl, rfl⟩

/-- `waitq_remove` of an entry already dequeued does nothing. -/
theorem waitRemove_out {s out own gs xs} (I : Inv s out own gs xs) (k b : Nat) (hb : out b) : waitRemove s k b = s := by
  have hob : own b = .out := (I.out b).1 hb
  have hcl := I.cleanOut b hob
  have hh : (s.q (.wait k)).head ≠ b := by
    rw [I.qHead]
    intro e
    by_cases hx : xs (.wait k) = []
    · rw [hx] at e; exact I.ne0 (by rw [hob]; simp) e.symm
    · have := (I.q (.wait k) b).1 (e ▸ hd_mem hx 0)
      rw [hob] at this; cases this
  simp only [waitRemove, hcl.1, hcl.2, ne_eq, not_true_eq_false, if_false, hh]

/-- One round of `waitq_pop` on a queue with a head: the state after the head is taken off. -/
def popState (s : St) (k b : Nat) : St :=
  let l := s.q (.wait k)
  let h := (s.mem b).next
  let s1 := if h = 0 then setQ s (.wait k) { l with head := 0, rear := 0 }
    else setQ (setPrev s h 0) (.wait k) { l with head := h }
  setNext (setPrev s1 b 0) b 0

theorem popState_spec {s out own gs xs} (I : Inv s out own gs xs) (k b : Nat) (ys : List Nat)
    (hx : xs (.wait k) = b :: ys) :
    Inv (popState s k b) (fun x => x = b ∨ out x) (upd own b .out) gs (upd xs (.wait k) ys) ∧
      (popState s k b).done = s.done ∧
      (∀ x, ((popState s k b).mem x).co = (s.mem x).co ∧ ((popState s k b).mem x).isSelect = (s.mem x).isSelect) := by
  have hdl := I.qDL (.wait k)
  rw [hx] at hdl
  have hnd := I.qNd (.wait k)
  rw [hx] at hnd
  have hby : b ∉ ys := (List.nodup_cons.1 hnd).1
  have hpv : (s.mem b).prev = 0 := hdl.1
  have hnx : (s.mem b).next = hd ys 0 := hdl.2.1
  cases ys with
  | nil =>
    have hnx0 : (s.mem b).next = 0 := hnx
    let s' := setNext (setPrev (setQ s (.wait k) { s.q (.wait k) with head := 0, rear := 0 }) b 0) b 0
    have e : popState s k b = s' := by simp only [popState, hnx0, if_true]; rfl
    have hmx : ∀ x, x ≠ b → s'.mem x = s.mem x := fun x h => by
      simp only [s', setNext, setPrev, setQ, upd_ne _ _ _ _ h]
    have hmb : s'.mem b = { s.mem b with prev := 0, next := 0 } := by
      simp only [s', setNext, setPrev, setQ, upd_self]
    rw [e]
    refine ⟨?_, rfl, ?_⟩
    · refine unlink_inv I (.wait k) [] [] b hx rfl rfl rfl ?_ ?_ ?_ ?_ ?_ ?_ ?_ ?_
      · rw [hmb]; exact ⟨rfl, rfl⟩
      · intro x
        by_cases h : x = b
        · subst h; rw [hmb]
        · rw [hmx x h]
      · intro x h h0
        show _ = if x = 0 then _ else _
        rw [if_neg h0, hmx x h]
      · intro x h h0
        show _ = if x = 0 then _ else _
        rw [if_neg h0, hmx x h]
      · simp only [s', setNext, setPrev, setQ, upd_self]; rfl
      · simp only [s', setNext, setPrev, setQ, upd_self]; rfl
      · intro k' h; cases h
      · intro j hj; simp only [s', setNext, setPrev, setQ, upd_ne _ _ _ _ hj]
    · intro x
      by_cases h : x = b
      · subst h; rw [hmb]; exact ⟨rfl, rfl⟩
      · rw [hmx x h]; exact ⟨rfl, rfl⟩
  | cons c ys =>
    have hnx0 : (s.mem b).next = c := hnx
    have hc0 : c ≠ 0 := I.q_ne0 (i := .wait k) (by rw [hx]; simp)
    have hcb : c ≠ b := fun e => hby (by simp [e])
    let s' := setNext (setPrev (setQ (setPrev s c 0) (.wait k) { s.q (.wait k) with head := c }) b 0) b 0
    have e : popState s k b = s' := by simp only [popState, hnx0, hc0, if_false]; rfl
    have hmx : ∀ x, x ≠ b → x ≠ c → s'.mem x = s.mem x := fun x h h2 => by
      simp only [s', setNext, setPrev, setQ, upd_ne _ _ _ _ h, upd_ne _ _ _ _ h2]
    have hmc : s'.mem c = { s.mem c with prev := 0 } := by
      simp only [s', setNext, setPrev, setQ, upd_ne _ _ _ _ hcb, upd_self]
    have hmb : s'.mem b = { s.mem b with prev := 0, next := 0 } := by
      simp only [s', setNext, setPrev, setQ, upd_ne _ _ _ _ (Ne.symm hcb), upd_self]
    rw [e]
    refine ⟨?_, rfl, ?_⟩
    · refine unlink_inv I (.wait k) [] (c :: ys) b hx rfl rfl rfl ?_ ?_ ?_ ?_ ?_ ?_ ?_ ?_
      · rw [hmb]; exact ⟨rfl, rfl⟩
      · intro x
        by_cases h : x = b
        · subst h; rw [hmb]
        · by_cases h2 : x = c
          · subst h2; rw [hmc]
          · rw [hmx x h h2]
      · intro x h h0
        show _ = if x = c then _ else _
        by_cases h2 : x = c
        · subst h2; rw [if_pos rfl, hmc]; rfl
        · rw [if_neg h2, hmx x h h2]
      · intro x h h0
        show _ = if x = 0 then _ else _
        rw [if_neg h0]
        by_cases h2 : x = c
        · subst h2; rw [hmc]
        · rw [hmx x h h2]
      · simp only [s', setNext, setPrev, setQ, upd_self]; rfl
      · simp only [s', setNext, setPrev, setQ, upd_self]; rw [I.qRear, hx]; rfl
      · intro k' h; cases h
      · intro j hj; simp only [s', setNext, setPrev, setQ, upd_ne _ _ _ _ hj]
    · intro x
      by_cases h : x = b
      · subst h; rw [hmb]; exact ⟨rfl, rfl⟩
      · by_cases h2 : x = c
        · subst h2; rw [hmc]; exact ⟨rfl, rfl⟩
        · rw [hmx x h h2]; exact ⟨rfl, rfl⟩

/-- A cell of a select that has been decided. -/
def lost (s : St) (a : Nat) : Bool := (s.mem a).isSelect && s.done (s.mem a).co

/-- `waitq_pop`. -/
theorem waitPop_spec (k : Nat) : ∀ (zs : List Nat) {s out own gs xs}, Inv s out own gs xs → xs (.wait k) = zs →
    ∃ s' own', (∀ n, waitPop k n s = if n ≤ (zs.takeWhile (lost s)).length then none
        else some (hd (zs.dropWhile (lost s)) 0, s')) ∧
      Inv s' (fun x => (x ∈ zs ∧ x ∉ (zs.dropWhile (lost s)).tail) ∨ out x) own' gs
        (upd xs (.wait k) (zs.dropWhile (lost s)).tail) ∧
      (∀ x, (s'.mem x).co = (s.mem x).co ∧ (s'.mem x).isSelect = (s.mem x).isSelect) ∧
      (∀ c, s'.done c = (s.done c || (match zs.dropWhile (lost s) with
        | [] => false
        | b :: _ => (s.mem b).isSelect && c == (s.mem b).co))) := by
  intro zs
  induction zs with
  | nil =>
    intro s out own gs xs I hx
    have hh : (s.q (.wait k)).head = 0 := by rw [I.qHead, hx]; rfl
    have hr : (s.q (.wait k)).rear = 0 := by rw [I.qRear, hx]; rfl
    refine ⟨s, own, ?_, ?_, fun _ => ⟨rfl, rfl⟩, ?_⟩
    · intro n
      cases n with
      | zero => rfl
      | succ n => simp [waitPop, hh, hr, hd]
    · have : upd xs (.wait k) ((([] : List Nat).dropWhile (lost s)).tail) = xs := by
        have h := upd_same xs (.wait k)
        rw [hx] at h
        exact h
      rw [this]
      exact I.congr (fun x => by simp)
    · intro c; simp
  | cons b ys ih =>
    intro s out own gs xs I hx
    have hbm : b ∈ xs (.wait k) := by rw [hx]; simp
    have hb0 : b ≠ 0 := I.q_ne0 hbm
    have hh : (s.q (.wait k)).head = b := by rw [I.qHead, hx]; rfl
    have hco : (s.mem b).co ≠ 0 := I.qCo _ b hbm
    have hnd := I.qNd (.wait k)
    rw [hx] at hnd
    have hby : b ∉ ys := (List.nodup_cons.1 hnd).1
    obtain ⟨I1, hd1, hf1⟩ := popState_spec I k b ys hx
    have hstep : ∀ n, waitPop k (n + 1) s = if (s.mem b).isSelect = true then
        if s.done (s.mem b).co = true then waitPop k n (popState s k b)
        else some (b, { popState s k b with done := upd s.done (s.mem b).co true })
      else some (b, popState s k b) := by
      intro n
      have e : waitPop k (n + 1) s = if ((popState s k b).mem b).isSelect = true then
        if (popState s k b).done ((popState s k b).mem b).co = true then waitPop k n (popState s k b)
        else some (b, { popState s k b with done := upd (popState s k b).done ((popState s k b).mem b).co true })
      else some (b, popState s k b) := by
        simp only [waitPop, hh, hb0, if_false, hco]
        rfl
      rw [e, (hf1 b).1, (hf1 b).2, hd1]
    by_cases hsel : (s.mem b).isSelect = true
    · by_cases hdone : s.done (s.mem b).co = true
      · -- dropped
        have hl : lost s b = true := by simp [lost, hsel, hdone]
        have hll : ∀ x, lost (popState s k b) x = lost s x := by
          intro x
          rw [lost, lost, (hf1 x).1, (hf1 x).2, hd1]
        have hfun : lost (popState s k b) = lost s := funext hll
        obtain ⟨s', own', e', I', f', d'⟩ := ih I1 (upd_self _ _ _)
        rw [hfun] at e' I' d'
        refine ⟨s', own', ?_, ?_, ?_, ?_⟩
        · intro n
          rw [List.takeWhile_cons_of_pos hl, List.dropWhile_cons_of_pos hl, List.length_cons]
          cases n with
          | zero => rw [if_pos (by omega)]; rfl
          | succ n =>
            rw [hstep, if_pos hsel, if_pos hdone, e' n]
            by_cases hn : n ≤ (ys.takeWhile (lost s)).length
            · rw [if_pos hn, if_pos (by omega)]
            · rw [if_neg hn, if_neg (by omega)]
        · rw [List.dropWhile_cons_of_pos hl]
          have hxs : upd (upd xs (.wait k) ys) (.wait k) (ys.dropWhile (lost s)).tail =
              upd xs (.wait k) (ys.dropWhile (lost s)).tail := by
            funext i
            by_cases hi : i = .wait k
            · subst hi; rw [upd_self, upd_self]
            · rw [upd_ne _ _ _ _ hi, upd_ne _ _ _ _ hi, upd_ne _ _ _ _ hi]
          rw [hxs] at I'
          refine I'.congr fun x => ?_
          have hsub : x ∈ (ys.dropWhile (lost s)).tail → x ∈ ys := fun h =>
            (List.dropWhile_sublist _).subset (List.mem_of_mem_tail h)
          by_cases hxb : x = b
          · subst hxb
            have : x ∉ (ys.dropWhile (lost s)).tail := fun h => hby (hsub h)
            simp [this]
          · simp [hxb]
        · intro x; exact ⟨(f' x).1.trans (hf1 x).1, (f' x).2.trans (hf1 x).2⟩
        · intro c
          rw [d' c, hd1, List.dropWhile_cons_of_pos hl]
          cases ys.dropWhile (lost s) with
          | nil => rfl
          | cons y _ => simp only [(hf1 y).1, (hf1 y).2]
      · -- taken, and the select is decided
        have hl : ¬ lost s b = true := by simp [lost, hsel, hdone]
        refine ⟨{ popState s k b with done := upd s.done (s.mem b).co true }, upd own b .out, ?_, ?_, hf1, ?_⟩
        · intro n
          rw [List.takeWhile_cons_of_neg hl, List.dropWhile_cons_of_neg hl]
          cases n with
          | zero => rfl
          | succ n =>
            rw [hstep, if_pos hsel, if_neg hdone, if_neg (by simp)]
            rfl
        · rw [List.dropWhile_cons_of_neg hl]
          refine (done_inv I1 _).congr fun x => ?_
          rw [List.tail_cons]
          by_cases hxb : x = b
          · subst hxb; simp [hby]
          · simp [hxb]
        · intro c
          rw [List.dropWhile_cons_of_neg hl]
          show upd s.done (s.mem b).co true c = _
          by_cases hc : c = (s.mem b).co
          · subst hc; rw [upd_self]; simp [hsel]
          · rw [upd_ne _ _ _ _ hc]; simp [hc]
    · have hl : ¬ lost s b = true := by simp [lost, hsel]
      refine ⟨popState s k b, upd own b .out, ?_, ?_, hf1, ?_⟩
      · intro n
        rw [List.takeWhile_cons_of_neg hl, List.dropWhile_cons_of_neg hl]
        cases n with
        | zero => rfl
        | succ n =>
          rw [hstep, if_neg hsel, if_neg (by simp)]
          rfl
      · rw [List.dropWhile_cons_of_neg hl]
        refine I1.congr fun x => ?_
        rw [List.tail_cons]
        by_cases hxb : x = b
        · subst hxb; simp [hby]
        · simp [hxb]
      · intro c
        rw [List.dropWhile_cons_of_neg hl, hd1]
        simp [hsel]

end Nature.Linkco
