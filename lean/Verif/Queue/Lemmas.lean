import Verif.Queue.Spec
namespace Nature.Queue

def hd (xs : List (Nat × Nat)) (z : Nat) : Nat := match xs with
  | [] => z
  | e :: _ => e.1

def lastOr : Nat → List (Nat × Nat) → Nat
  | p, [] => p
  | _, e :: xs => lastOr e.1 xs

/-- A doubly linked segment. -/
def DL (m : Nat → Option Node) : Nat → List (Nat × Nat) → Nat → Prop
  | _, [], _ => True
  | p, e :: xs, z => m e.1 = some ⟨e.2, hd xs z, p⟩ ∧ DL m e.1 xs z

theorem put_self (m : Nat → Option Node) (a n) : put m a n a = n := by simp [put]
theorem put_ne (m : Nat → Option Node) (a n x) (h : x ≠ a) : put m a n x = m x := by simp [put, h]

theorem hd_append (xs ys : List (Nat × Nat)) (z : Nat) : hd (xs ++ ys) z = hd xs (hd ys z) := by
  cases xs <;> rfl

theorem lastOr_append (xs ys : List (Nat × Nat)) : ∀ p, lastOr p (xs ++ ys) = lastOr (lastOr p xs) ys := by
  induction xs with
  | nil => intro p; rfl
  | cons e xs ih => intro p; exact ih e.1

theorem DL_append {m : Nat → Option Node} (xs ys : List (Nat × Nat)) (z : Nat) : ∀ p,
    DL m p (xs ++ ys) z ↔ DL m p xs (hd ys z) ∧ DL m (lastOr p xs) ys z := by
  induction xs with
  | nil => intro p; simp [DL, lastOr]
  | cons e xs ih =>
    intro p
    simp only [List.cons_append, DL, lastOr, ih, hd_append, and_assoc]

theorem DL_frame {m m' : Nat → Option Node} {xs : List (Nat × Nat)} {z : Nat} : ∀ {p},
    (∀ e ∈ xs, m' e.1 = m e.1) → DL m p xs z → DL m' p xs z := by
  induction xs with
  | nil => intro _ _ _; exact True.intro
  | cons e xs ih =>
    intro p h d
    exact ⟨(h e (by simp)).trans d.1, ih (fun e' he' => h e' (by simp [he'])) d.2⟩

/-- Entries of the queue followed by the blank node. -/
abbrev full (xs : List (Nat × Nat)) (r : Nat) : List (Nat × Nat) := xs ++ [(r, 0)]

structure Rep (q : Q) (xs : List (Nat × Nat)) : Prop where
  dl : DL q.mem 0 (full xs q.rear) 0
  nodup : ((full xs q.rear).map (·.1)).Nodup
  pos : ∀ e ∈ full xs q.rear, e.1 ≠ 0
  head : q.head = hd (full xs q.rear) 0
  count : q.count = xs.length

theorem DL_mem {m : Nat → Option Node} {xs : List (Nat × Nat)} {z : Nat} : ∀ {p}, DL m p xs z → ∀ e ∈ xs,
    ∃ n, m e.1 = some n := by
  induction xs with
  | nil => intro _ _ e he; cases he
  | cons e xs ih =>
    intro p d e' he'
    rcases List.mem_cons.1 he' with rfl | h
    · exact ⟨_, d.1⟩
    · exact ih d.2 e' h

theorem Rep.not_fresh {q : Q} {xs} (h : Rep q xs) {a : Nat} (ha : q.mem a = none) :
    a ∉ (full xs q.rear).map (·.1) := by
  intro hm
  obtain ⟨e, he, rfl⟩ := List.mem_map.1 hm
  obtain ⟨n, hn⟩ := DL_mem h.dl e he
  simp [hn] at ha

theorem chain_of_DL {m : Nat → Option Node} {z : Nat} {xs : List (Nat × Nat)} : ∀ {p},
    DL m p xs z → (∀ e ∈ xs, e.1 ≠ z) → Chain m z (hd xs z) xs := by
  induction xs with
  | nil => intro p _ _; exact Chain.done
  | cons e xs ih =>
    intro p d hz
    exact Chain.node e.1 ⟨e.2, hd xs z, p⟩ xs (hz e (by simp)) d.1 (ih d.2 fun e' he' => hz e' (by simp [he']))

theorem Rep.holds {q : Q} {xs} (h : Rep q xs) : Holds q xs := by
  have d := (DL_append xs [(q.rear, 0)] 0 0).1 h.dl
  have hh : q.head = hd xs q.rear := by rw [h.head, full, hd_append]; rfl
  unfold Holds
  rw [hh]
  refine chain_of_DL d.1 ?_
  intro e he heq
  have nd := h.nodup
  rw [full, List.map_append, List.nodup_append] at nd
  exact nd.2.2 e.1 (List.mem_map.2 ⟨e, he, rfl⟩) q.rear (by simp) heq

theorem chain_unique {m : Nat → Option Node} {z a : Nat} {xs ys} (h : Chain m z a xs) : Chain m z a ys → xs = ys := by
  induction h generalizing ys with
  | done => intro h; cases h with
    | done => rfl
    | node n xs _ h1 => exact absurd rfl h1
  | node a n xs hne hm hc ih =>
    intro h
    cases h with
    | done => exact absurd rfl hne
    | node _ n' ys hne' hm' hc' =>
      rw [hm] at hm'
      cases hm'
      rw [ih hc']

theorem Holds.unique {q : Q} {xs ys} (h : Holds q xs) (h' : Holds q ys) : xs = ys := chain_unique h h'

theorem init_rep (e : Nat) (he : e ≠ 0) : Rep (init e) [] :=
  ⟨⟨by simp [init, put, blank, hd], True.intro⟩, by simp [init], by simp [init, he], rfl, rfl⟩

theorem push_rep {q : Q} {xs} (h : Rep q xs) {a : Nat} (v : Nat) (ha : Fresh q a) :
    ∃ q', push q a v = some q' ∧ Rep q' (xs ++ [(q.rear, v)]) ∧ q'.rear = a ∧
      (∀ x, x ≠ a → x ≠ q.rear → q'.mem x = q.mem x) := by
  have d := (DL_append xs [(q.rear, 0)] 0 0).1 h.dl
  have hr : q.mem q.rear = some ⟨0, 0, lastOr 0 xs⟩ := d.2.1
  have hnf := h.not_fresh ha.2
  have hra : q.rear ≠ a := fun e => hnf (by simp [e])
  have nd := h.nodup
  rw [full, List.map_append, List.nodup_append] at nd
  refine ⟨⟨q.head, a, q.count + 1, put (put (put (put q.mem a (some blank)) a (some ⟨0, 0, q.rear⟩)) q.rear
    (some ⟨0, a, lastOr 0 xs⟩)) q.rear (some ⟨v, a, lastOr 0 xs⟩)⟩, ?_, ?_, rfl, ?_⟩
  · simp only [push, setPrev, setSucc, setValue, put_self, put_ne _ _ _ _ hra, hr, Option.map_some,
      Option.bind_some]
    rfl
  · constructor
    · rw [full, DL_append, DL_append]
      refine ⟨⟨?_, ?_⟩, ?_⟩
      · refine DL_frame ?_ d.1
        intro e he
        have h1 : e.1 ≠ q.rear := fun heq => nd.2.2 e.1 (List.mem_map.2 ⟨e, he, rfl⟩) q.rear (by simp) heq
        have h2 : e.1 ≠ a := fun heq => hnf (by
          rw [← heq]; exact List.mem_map.2 ⟨e, by simp [he], rfl⟩)
        simp only [put_ne _ _ _ _ h1, put_ne _ _ _ _ h2]
      · refine ⟨?_, True.intro⟩
        simp only [put_self]; rfl
      · refine ⟨?_, True.intro⟩
        rw [lastOr_append]
        simp only [lastOr, put_ne _ _ _ _ (Ne.symm hra), put_self]
        rfl
    · show ((full (xs ++ [(q.rear, v)]) a).map (·.1)).Nodup
      have : (full (xs ++ [(q.rear, v)]) a).map (·.1) = (full xs q.rear).map (·.1) ++ [a] := by simp
      rw [this, List.nodup_append]
      exact ⟨h.nodup, by simp, fun x hx y hy => by
        have : y = a := by simpa using hy
        rw [this]; rintro rfl; exact hnf hx⟩
    · intro e he
      show e.1 ≠ 0
      simp only [full, List.mem_append, List.mem_cons, List.not_mem_nil, or_false] at he
      rcases he with (he | rfl) | rfl
      · exact h.pos e (by simp [he])
      · exact h.pos (q.rear, 0) (by simp)
      · exact ha.1
    · show q.head = _
      rw [h.head]
      simp only [full, hd_append]
      rfl
    · show q.count + 1 = _
      rw [h.count]; simp
  · intro x h1 h2
    simp only [put_ne _ _ _ _ h1, put_ne _ _ _ _ h2]

theorem DL_set_prev {m : Nat → Option Node} {b p w : Nat} {zs : List (Nat × Nat)} {z : Nat}
    (d : DL m p ((b, w) :: zs) z) (nd : b ∉ zs.map (·.1)) (p' : Nat) :
    ∃ m', setPrev m b p' = some m' ∧ DL m' p' ((b, w) :: zs) z ∧ (∀ x, x ≠ b → m' x = m x) := by
  refine ⟨_, by simp only [setPrev, d.1, Option.map_some], ⟨put_self _ _ _, ?_⟩, fun x hx => put_ne _ _ _ _ hx⟩
  refine DL_frame (fun e he => put_ne _ _ _ _ ?_) d.2
  rintro h
  exact nd (List.mem_map.2 ⟨e, he, h⟩)

theorem full_cons (xs : List (Nat × Nat)) (r : Nat) : ∃ b w zs, full xs r = (b, w) :: zs := by
  cases xs with
  | nil => exact ⟨r, 0, [], rfl⟩
  | cons e xs => exact ⟨e.1, e.2, xs ++ [(r, 0)], rfl⟩

theorem pushFront_rep {q : Q} {xs} (h : Rep q xs) {a : Nat} (v : Nat) (ha : Fresh q a) :
    ∃ q', pushFront q a v = some q' ∧ Rep q' ((a, v) :: xs) ∧ q'.rear = q.rear ∧
      (∀ x, x ≠ a → x ∉ (full xs q.rear).map (·.1) → q'.mem x = q.mem x) := by
  obtain ⟨b, w, zs, hf⟩ := full_cons xs q.rear
  have hnf := h.not_fresh ha.2
  have hb : q.head = b := by rw [h.head, hf]; rfl
  have hd0 := h.dl
  have hnd := h.nodup
  rw [hf] at hd0 hnd hnf
  simp only [List.map_cons, List.nodup_cons] at hnd
  have hba : b ≠ a := fun e => hnf (by simp [e])
  -- the memory after the first two stores
  let m2 := put (put (put q.mem a (some blank)) a (some { blank with value := v })) a
    (some { ({ blank with value := v } : Node) with succ := b })
  have hm2 : ∀ x, x ≠ a → m2 x = q.mem x := fun x hx => by
    simp only [m2, put_ne _ _ _ _ hx]
  have d2 : DL m2 0 ((b, w) :: zs) 0 := DL_frame (fun e he => hm2 _ fun heq => hnf (by
    rw [← heq]; exact List.mem_map.2 ⟨e, he, rfl⟩)) hd0
  obtain ⟨m3, e3, d3, f3⟩ := DL_set_prev d2 hnd.1 a
  have e3' : setPrev m2 q.head a = some m3 := by rw [hb]; exact e3
  refine ⟨⟨a, q.rear, q.count + 1, m3⟩, ?_, ?_, rfl, ?_⟩
  · simp only [pushFront, setValue, setSucc, put_self, Option.map_some, Option.bind_some]
    rw [show (put (put (put q.mem a (some blank)) a (some { value := v, succ := blank.succ, prev := blank.prev })) a
      (some { value := v, succ := q.head, prev := blank.prev })) = m2 by rw [hb]]
    rw [e3']; rfl
  · constructor
    · show DL m3 0 ((a, v) :: full xs q.rear) 0
      rw [hf]
      refine ⟨?_, d3⟩
      rw [f3 a (Ne.symm hba)]
      simp only [m2, put_self]
      rfl
    · show (((a, v) :: full xs q.rear).map (·.1)).Nodup
      rw [hf]
      simp only [List.map_cons, List.nodup_cons]
      exact ⟨by simpa using hnf, hnd⟩
    · intro e he
      show e.1 ≠ 0
      rcases List.mem_cons.1 he with rfl | he
      · exact ha.1
      · exact h.pos e he
    · rfl
    · show q.count + 1 = _
      rw [h.count]; rfl
  · intro x h1 h2
    rw [hf] at h2
    show m3 x = _
    rw [f3 x fun e => h2 (by simp [e]), hm2 x h1]

theorem pop_nil {q : Q} (h : Rep q []) : pop q = some (0, q) := by
  simp [pop, h.count]

theorem pop_rep {q : Q} {a v : Nat} {ys} (h : Rep q ((a, v) :: ys)) :
    ∃ q', pop q = some (v, q') ∧ Rep q' ys ∧ q'.rear = q.rear ∧ q'.mem a = none ∧
      (∀ x, x ∉ (full ((a, v) :: ys) q.rear).map (·.1) → q'.mem x = q.mem x) := by
  obtain ⟨b, w, zs, hf⟩ := full_cons ys q.rear
  have hfull : full ((a, v) :: ys) q.rear = (a, v) :: (b, w) :: zs := by
    show (a, v) :: full ys q.rear = _
    rw [hf]
  have hc : q.count ≠ 0 := by rw [h.count]; simp
  have hh : q.head = a := by rw [h.head]; rfl
  have hd0 := h.dl
  have hnd := h.nodup
  have hp := h.pos
  rw [hfull] at hd0 hnd hp
  have ha0 : a ≠ 0 := hp (a, v) (by simp)
  have hb0 : b ≠ 0 := hp (b, w) (by simp)
  simp only [List.map_cons, List.nodup_cons, List.mem_cons, not_or] at hnd
  obtain ⟨m1, e1, d1, f1⟩ := DL_set_prev hd0.2 hnd.2.1 0
  have hma : q.mem a = some ⟨v, b, 0⟩ := hd0.1
  refine ⟨⟨b, q.rear, q.count - 1, put m1 a none⟩, ?_, ?_, rfl, put_self _ _ _, ?_⟩
  · simp only [pop, hc, if_false, hh, ha0, hma, Option.bind_some, hb0, e1]
  · constructor
    · show DL (put m1 a none) 0 (full ys q.rear) 0
      rw [hf]
      refine DL_frame (fun e he => put_ne _ _ _ _ ?_) d1
      rcases List.mem_cons.1 he with rfl | he
      · exact fun e => hnd.1.1 e.symm
      · exact fun heq => hnd.1.2 (heq ▸ List.mem_map.2 ⟨e, he, rfl⟩)
    · show ((full ys q.rear).map (·.1)).Nodup
      rw [hf]
      simp only [List.map_cons, List.nodup_cons]
      exact hnd.2
    · show ∀ e ∈ full ys q.rear, e.1 ≠ 0
      rw [hf]
      exact fun e he => hp e (List.mem_cons_of_mem _ he)
    · show b = hd (full ys q.rear) 0
      rw [hf]; rfl
    · show q.count - 1 = _
      rw [h.count]; simp
  · intro x hx
    rw [hfull] at hx
    simp only [List.map_cons, List.mem_cons, not_or] at hx
    show put m1 a none x = _
    rw [put_ne _ _ _ _ hx.1, f1 x hx.2.1]

theorem DL_set_succ_last {m : Nat → Option Node} {p u z : Nat} {l : List (Nat × Nat)} {p0 : Nat}
    (d : DL m p0 (l ++ [(p, u)]) z) (nd : p ∉ l.map (·.1)) (z' : Nat) :
    ∃ m', setSucc m p z' = some m' ∧ DL m' p0 (l ++ [(p, u)]) z' ∧ (∀ x, x ≠ p → m' x = m x) := by
  have d' := (DL_append l [(p, u)] z p0).1 d
  refine ⟨put m p (some ⟨u, z', lastOr p0 l⟩), by simp only [setSucc, d'.2.1, Option.map_some], ?_, fun x hx => put_ne _ _ _ _ hx⟩
  rw [DL_append]
  refine ⟨DL_frame (fun e he => put_ne _ _ _ _ ?_) d'.1, put_self _ _ _, True.intro⟩
  rintro h
  exact nd (List.mem_map.2 ⟨e, he, h⟩)

theorem lastOr_snoc (l : List (Nat × Nat)) (p u x : Nat) : lastOr x (l ++ [(p, u)]) = p := by
  rw [lastOr_append]; rfl

/-- Linking two segments around a gap. -/
theorem join {m1 : Nat → Option Node} {l zs : List (Nat × Nat)} {p u b w : Nat}
    (hl : DL m1 0 (l ++ [(p, u)]) b) (hr : DL m1 p ((b, w) :: zs) 0) :
    DL m1 0 (l ++ (p, u) :: (b, w) :: zs) 0 := by
  have : l ++ (p, u) :: (b, w) :: zs = (l ++ [(p, u)]) ++ (b, w) :: zs := by simp
  rw [this, DL_append, lastOr_snoc]
  exact ⟨hl, hr⟩

theorem unjoin {m1 : Nat → Option Node} {l zs : List (Nat × Nat)} {p u b w : Nat}
    (h : DL m1 0 (l ++ (p, u) :: (b, w) :: zs) 0) :
    DL m1 0 (l ++ [(p, u)]) b ∧ DL m1 p ((b, w) :: zs) 0 := by
  have : l ++ (p, u) :: (b, w) :: zs = (l ++ [(p, u)]) ++ (b, w) :: zs := by simp
  rw [this, DL_append, lastOr_snoc] at h
  exact h

theorem remove_head {q : Q} {a v : Nat} {ys} (h : Rep q ((a, v) :: ys)) :
    remove q a = (pop q).map (·.2) := by
  have hh : q.head = a := by rw [h.head]; rfl
  have ha0 : a ≠ 0 := h.pos (a, v) (by simp)
  simp [remove, ha0, hh]

theorem remove_mid {q : Q} {l zs : List (Nat × Nat)} {p u a v : Nat} (h : Rep q (l ++ (p, u) :: (a, v) :: zs)) :
    ∃ q', remove q a = some q' ∧ Rep q' (l ++ (p, u) :: zs) ∧ q'.rear = q.rear ∧ q'.mem a = none ∧
      (∀ x, x ∉ (full (l ++ (p, u) :: (a, v) :: zs) q.rear).map (·.1) → q'.mem x = q.mem x) := by
  obtain ⟨b, w, rs, hf⟩ := full_cons zs q.rear
  have hfull : full (l ++ (p, u) :: (a, v) :: zs) q.rear = l ++ (p, u) :: (a, v) :: (b, w) :: rs := by
    have : full (l ++ (p, u) :: (a, v) :: zs) q.rear = l ++ (p, u) :: (a, v) :: full zs q.rear := by simp [full]
    rw [this, hf]
  have hd0 := h.dl
  have hnd := h.nodup
  have hp := h.pos
  have hhd := h.head
  rw [hfull] at hd0 hnd hp hhd
  have ha0 : a ≠ 0 := hp (a, v) (by simp)
  obtain ⟨d1, d2⟩ := unjoin hd0
  rw [List.map_append, List.nodup_append] at hnd
  obtain ⟨nl, nr, nx⟩ := hnd
  simp only [List.map_cons, List.nodup_cons, List.mem_cons, not_or] at nr nx
  obtain ⟨⟨hpa, hpb, hprs⟩, ⟨hab, hars⟩, hbrs, nrs⟩ := nr
  have nx' : ∀ x y, x ∈ l.map (·.1) → (y = p ∨ y = a ∨ y = b ∨ y ∈ rs.map (·.1)) → x ≠ y := fun x y hx hy => nx x hx y hy
  have hah : a ≠ q.head := by
    rw [hhd]
    cases l with
    | nil => exact fun e => hpa e.symm
    | cons e l => exact fun heq => nx' e.1 a (by simp) (by simp) heq.symm
  have hma : q.mem a = some ⟨v, b, p⟩ := d2.1
  obtain ⟨m1, e1, D1, f1⟩ := DL_set_succ_last d1 (fun hx => nx' p p hx (by simp) rfl) b
  have d2' : DL m1 a ((b, w) :: rs) 0 := by
    refine DL_frame (fun e he => f1 _ ?_) d2.2
    rcases List.mem_cons.1 he with rfl | he
    · exact fun e => hpb e.symm
    · exact fun heq => hprs (heq ▸ List.mem_map.2 ⟨e, he, rfl⟩)
  obtain ⟨m2, e2, D2, f2⟩ := DL_set_prev d2' hbrs p
  have D1' : DL m2 0 (l ++ [(p, u)]) b := by
    refine DL_frame (fun e he => f2 _ ?_) D1
    rcases List.mem_append.1 he with he | he
    · exact nx' e.1 b (List.mem_map.2 ⟨e, he, rfl⟩) (by simp)
    · have : e = (p, u) := by simpa using he
      rw [this]; exact hpb
  refine ⟨⟨q.head, q.rear, q.count - 1, put m2 a none⟩, ?_, ?_, rfl, put_self _ _ _, ?_⟩
  · simp only [remove, ha0, hah, if_false, hma, Option.bind_some, e1, e2]
  · have hfull' : full (l ++ (p, u) :: zs) q.rear = l ++ (p, u) :: (b, w) :: rs := by
      have : full (l ++ (p, u) :: zs) q.rear = l ++ (p, u) :: full zs q.rear := by simp [full]
      rw [this, hf]
    have hna : ∀ e ∈ l ++ (p, u) :: (b, w) :: rs, e.1 ≠ a := by
      intro e he
      rcases List.mem_append.1 he with he | he
      · exact nx' e.1 a (List.mem_map.2 ⟨e, he, rfl⟩) (by simp)
      · rcases List.mem_cons.1 he with rfl | he
        · exact hpa
        · rcases List.mem_cons.1 he with rfl | he
          · exact fun e => hab e.symm
          · exact fun heq => hars (heq ▸ List.mem_map.2 ⟨e, he, rfl⟩)
    constructor
    · show DL (put m2 a none) 0 (full (l ++ (p, u) :: zs) q.rear) 0
      rw [hfull']
      exact DL_frame (fun e he => put_ne _ _ _ _ (hna e he)) (join D1' D2)
    · show ((full (l ++ (p, u) :: zs) q.rear).map (·.1)).Nodup
      rw [hfull', List.map_append, List.nodup_append]
      refine ⟨nl, ?_, fun x hx y hy => ?_⟩
      · simp only [List.map_cons, List.nodup_cons, List.mem_cons, not_or]
        exact ⟨⟨hpb, hprs⟩, hbrs, nrs⟩
      · simp only [List.map_cons, List.mem_cons] at hy
        exact nx' x y hx (by rcases hy with h | h | h <;> simp [h])
    · show ∀ e ∈ full (l ++ (p, u) :: zs) q.rear, e.1 ≠ 0
      rw [hfull']
      intro e he
      refine hp e ?_
      rcases List.mem_append.1 he with he | he
      · simp [he]
      · rcases List.mem_cons.1 he with rfl | he
        · simp
        · simp only [List.mem_append, List.mem_cons] at he ⊢
          exact Or.inr (Or.inr (Or.inr he))
    · show q.head = hd (full (l ++ (p, u) :: zs) q.rear) 0
      rw [hfull', hhd]
      cases l <;> rfl
    · show q.count - 1 = _
      rw [h.count]; simp
  · intro x hx
    rw [hfull] at hx
    simp only [List.map_append, List.map_cons, List.mem_append, List.mem_cons, not_or] at hx
    show put m2 a none x = _
    rw [put_ne _ _ _ _ hx.2.2.1, f2 x hx.2.2.2.1, f1 x hx.2.1]

theorem snoc_cases {α} (l : List α) : l = [] ∨ ∃ l' x, l = l' ++ [x] := by
  rcases List.eq_nil_or_concat l with h | ⟨l', x, h⟩
  · exact Or.inl h
  · exact Or.inr ⟨l', x, by simpa using h⟩

theorem remove_rep {q : Q} {l r : List (Nat × Nat)} {a v : Nat} (h : Rep q (l ++ (a, v) :: r)) :
    ∃ q', remove q a = some q' ∧ Rep q' (l ++ r) ∧ q'.rear = q.rear ∧ q'.mem a = none ∧
      (∀ x, x ∉ (full (l ++ (a, v) :: r) q.rear).map (·.1) → q'.mem x = q.mem x) := by
  rcases snoc_cases l with rfl | ⟨l', ⟨p, u⟩, rfl⟩
  · obtain ⟨q', e, hr, h1, h2, h3⟩ := pop_rep h
    exact ⟨q', by rw [List.nil_append] at h; rw [remove_head h, e]; rfl, hr, h1, h2, h3⟩
  · have e : l' ++ [(p, u)] ++ (a, v) :: r = l' ++ (p, u) :: (a, v) :: r := by simp
    have e' : l' ++ [(p, u)] ++ r = l' ++ (p, u) :: r := by simp
    rw [e] at h ⊢
    rw [e']
    exact remove_mid h

theorem last_rep {q : Q} {xs} (h : Rep q xs) : last q = some (lastOr 0 xs) := by
  have d := (DL_append xs [(q.rear, 0)] 0 0).1 h.dl
  have hr : q.mem q.rear = some ⟨0, 0, lastOr 0 xs⟩ := d.2.1
  unfold last
  cases xs with
  | nil => rw [if_pos (by rw [h.count]; rfl)]; rfl
  | cons e xs => rw [if_neg (by rw [h.count]; simp), hr]; rfl

theorem reach_rep {q : Q} (h : Reachable q) : ∃ xs, Rep q xs := by
  induction h with
  | init e he => exact ⟨[], init_rep e he⟩
  | push q q' a v _ hf he ih =>
    obtain ⟨xs, hx⟩ := ih
    obtain ⟨q2, e2, r2, _⟩ := push_rep hx v hf
    rw [e2] at he; cases he; exact ⟨_, r2⟩
  | pushFront q q' a v _ hf he ih =>
    obtain ⟨xs, hx⟩ := ih
    obtain ⟨q2, e2, r2, _⟩ := pushFront_rep hx v hf
    rw [e2] at he; cases he; exact ⟨_, r2⟩
  | pop q q' v _ he ih =>
    obtain ⟨xs, hx⟩ := ih
    cases xs with
    | nil => rw [pop_nil hx] at he; cases he; exact ⟨_, hx⟩
    | cons e xs =>
      obtain ⟨q2, e2, r2, _⟩ := pop_rep hx
      rw [e2] at he; cases he; exact ⟨_, r2⟩
  | remove q q' xs a v _ hh hm he ih =>
    obtain ⟨ys, hx⟩ := ih
    obtain rfl := hx.holds.unique hh
    obtain ⟨l, r, rfl⟩ := List.append_of_mem hm
    obtain ⟨q2, e2, r2, _⟩ := remove_rep hx
    rw [e2] at he; cases he; exact ⟨_, r2⟩

/-- No cell outside the queue is allocated. -/
def Tight (q : Q) (xs : List (Nat × Nat)) : Prop := ∀ x, q.mem x ≠ none → x ∈ (full xs q.rear).map (·.1)

theorem reach_tight {q : Q} (h : Reachable q) : ∀ xs, Rep q xs → Tight q xs := by
  induction h with
  | init e he =>
    intro xs hx x hm
    have : xs = [] := (hx.holds.unique (init_rep e he).holds)
    subst this
    by_cases hxe : x = e
    · subst hxe; simp [init]
    · exact absurd (put_ne (fun _ => none) e (some blank) x hxe) hm
  | push q q' a v hr hf he ih =>
    intro xs hx x hm
    obtain ⟨ys, hy⟩ := reach_rep hr
    obtain ⟨q2, e2, r2, hra, hfr⟩ := push_rep hy v hf
    rw [e2] at he; cases he
    obtain rfl := hx.holds.unique r2.holds
    by_cases h1 : x = a
    · subst h1; rw [hra]; simp
    · by_cases h2 : x = q.rear
      · subst h2; simp
      · rw [hfr x h1 h2] at hm
        have := ih ys hy x hm
        simp only [full, List.map_append, List.mem_append, List.map_cons, List.map_nil, List.mem_singleton] at this ⊢
        rcases this with h | h
        · exact Or.inl (Or.inl h)
        · exact absurd h h2
  | pushFront q q' a v hr hf he ih =>
    intro xs hx x hm
    obtain ⟨ys, hy⟩ := reach_rep hr
    obtain ⟨q2, e2, r2, hra, hfr⟩ := pushFront_rep hy v hf
    rw [e2] at he; cases he
    obtain rfl := hx.holds.unique r2.holds
    rw [hra]
    show x ∈ ((a, v) :: full ys q.rear).map (·.1)
    rw [List.map_cons, List.mem_cons]
    by_cases h1 : x = a
    · exact Or.inl h1
    · by_cases h2 : x ∈ (full ys q.rear).map (·.1)
      · exact Or.inr h2
      · rw [hfr x h1 h2] at hm
        exact absurd (ih ys hy x hm) h2
  | pop q q' v hr he ih =>
    intro xs hx x hm
    obtain ⟨ys, hy⟩ := reach_rep hr
    cases ys with
    | nil => rw [pop_nil hy] at he; cases he; exact ih xs hx x hm
    | cons e ys =>
      obtain ⟨q2, e2, r2, hra, hna, hfr⟩ := pop_rep hy
      rw [e2] at he; cases he
      obtain rfl := hx.holds.unique r2.holds
      rw [hra]
      by_cases h2 : x ∈ (full (e :: xs) q.rear).map (·.1)
      · rcases List.mem_cons.1 h2 with h | h
        · rw [h, hna] at hm; exact absurd rfl hm
        · exact h
      · have hx2 := hfr x h2
        rw [hx2] at hm
        exact absurd (ih _ hy x hm) h2
  | remove q q' zs a v hr hh hmem he ih =>
    intro xs hx x hm
    obtain ⟨ys, hy⟩ := reach_rep hr
    obtain rfl := hy.holds.unique hh
    obtain ⟨l, r, rfl⟩ := List.append_of_mem hmem
    obtain ⟨q2, e2, r2, hra, hna, hfr⟩ := remove_rep hy
    rw [e2] at he; cases he
    obtain rfl := hx.holds.unique r2.holds
    rw [hra]
    by_cases h2 : x ∈ (full (l ++ (a, v) :: r) q.rear).map (·.1)
    · simp only [full, List.append_assoc, List.cons_append, List.map_append, List.map_cons, List.mem_append, List.mem_cons] at h2 ⊢
      rcases h2 with h | h | h
      · exact Or.inl h
      · rw [h, hna] at hm; exact absurd rfl hm
      · exact Or.inr h
    · rw [hfr x h2] at hm
      exact absurd (ih _ hy x hm) h2

theorem walk_chain {m : Nat → Option Node} {z a : Nat} {xs : List (Nat × Nat)} (h : Chain m z a xs)
    {n : Node} (hz : m z = some n) (hn : n.value = 0) (hv : ∀ e ∈ xs, e.2 ≠ 0) :
    walk m (xs.length + 1) a = some (xs.map (·.1)) := by
  induction h with
  | done => simp [walk, hz, hn]
  | node a n' xs hne hm hc ih =>
    have h1 : n'.value ≠ 0 := hv (a, n'.value) (by simp)
    have := ih fun e he => hv e (by simp [he])
    rw [List.length_cons, walk, hm, Option.bind_some, if_neg h1, this]
    rfl

end Nature.Queue
