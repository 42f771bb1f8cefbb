import Verif.Linkco.Spec
import Verif.Linkco.Queues
/-
C25 for the queues of waiting coroutines: mutex waiter lists and channel queues, with the cells they are made of.
Every theorem is about every state the queue operations can reach, on any number of processors, lists and channels.
-/
namespace Nature.Linkco

theorem Chain.unique {m : Nat → Lc} {a : Nat} {xs ys : List (Nat × Nat)} (h : Chain m a xs) (h' : Chain m a ys) :
    xs = ys := by
  induction h generalizing ys with
  | done => cases h' with
    | done => rfl
    | cell _ _ h0 _ => exact absurd rfl h0
  | cell a xs h0 hc ih =>
    cases h' with
    | done => exact absurd rfl h0
    | cell _ zs _ hc' => rw [ih hc']

def ents (m : Nat → Lc) (l : List Nat) : List (Nat × Nat) := l.map fun a => (a, (m a).co)

theorem ents_fst (m : Nat → Lc) (l : List Nat) : (ents m l).map (·.1) = l := by
  simp [ents, List.map_map, Function.comp_def]

theorem ents_congr {m m' : Nat → Lc} {l : List Nat} (h : ∀ x ∈ l, (m' x).co = (m x).co) : ents m' l = ents m l :=
  List.map_congr_left fun x hx => by rw [h x hx]

theorem chain_of_DL {m : Nat → Lc} : ∀ (l : List Nat) (p : Nat), (∀ a ∈ l, a ≠ 0) → DL m p l 0 →
    Chain m (hd l 0) (ents m l) := by
  intro l
  induction l with
  | nil => intro _ _ _; exact Chain.done
  | cons a t ih =>
    intro p h0 d
    refine Chain.cell a _ (h0 a (by simp)) ?_
    rw [d.2.1]
    exact ih a (fun x hx => h0 x (by simp [hx])) d.2.2

theorem Inv.holds {s out own gs xs} (I : Inv s out own gs xs) (i : QId) : Holds s i (ents s.mem (xs i)) := by
  rw [Holds, I.qHead]
  exact chain_of_DL _ 0 (fun a ha => I.q_ne0 ha) (I.qDL i)

theorem Inv.holds_eq {s out own gs xs} (I : Inv s out own gs xs) {i : QId} {zs} (h : Holds s i zs) :
    zs = ents s.mem (xs i) := Chain.unique h (I.holds i)

theorem init_inv : Inv init (fun _ => False) (fun _ => .free) [] (fun _ => []) := by
  constructor <;> simp [init, DL, SL, hd, lastOr, cacheMax]

theorem reach_inv {s out} (h : Reachable s out) : ∃ own gs xs, Inv s out own gs xs := by
  induction h with
  | init => exact ⟨_, _, _, init_inv⟩
  | acquire s s' out p a b _ ha hl e ih =>
    obtain ⟨own, gs, xs, I⟩ := ih
    obtain ⟨b', s1, own', gs', e', I', _⟩ := acquire_inv I p a ha hl
    rw [e] at e'
    obtain ⟨rfl, rfl⟩ := Prod.mk.inj (Option.some.inj e')
    exact ⟨_, _, _, I'⟩
  | release s s' out p b _ hb e ih =>
    obtain ⟨own, gs, xs, I⟩ := ih
    obtain ⟨s1, own', gs', e', I', _⟩ := release_inv I p b hb
    rw [e] at e'
    obtain rfl := Option.some.inj e'
    exact ⟨_, _, _, I'⟩
  | push s s' out p k v a _ hv ha hl e ih =>
    obtain ⟨own, gs, xs, I⟩ := ih
    obtain ⟨b, s1, own', gs', e', I', _⟩ := listPush_spec I p k v a hv ha hl
    rw [e] at e'
    obtain rfl := Option.some.inj e'
    exact ⟨_, _, _, I'⟩
  | pushHead s s' out p k v a _ hv ha hl e ih =>
    obtain ⟨own, gs, xs, I⟩ := ih
    obtain ⟨b, s1, own', gs', e', I', _⟩ := listPushHead_spec I p k v a hv ha hl
    rw [e] at e'
    obtain rfl := Option.some.inj e'
    exact ⟨_, _, _, I'⟩
  | pop s s' out p k v _ e ih =>
    obtain ⟨own, gs, xs, I⟩ := ih
    cases hx : xs (.list k) with
    | nil =>
      rw [listPop_nil I p k hx] at e
      obtain ⟨rfl, rfl⟩ := Prod.mk.inj (Option.some.inj e)
      exact ⟨_, _, _, I⟩
    | cons b ys =>
      obtain ⟨s1, own', gs', e', I', _⟩ := listPop_spec I p k b ys hx
      rw [e] at e'
      obtain ⟨rfl, rfl⟩ := Prod.mk.inj (Option.some.inj e')
      exact ⟨_, _, _, I'⟩
  | remove s s' out p k b zs _ hz hb e ih =>
    obtain ⟨own, gs, xs, I⟩ := ih
    rw [I.holds_eq hz, ents_fst] at hb
    by_cases hx : xs (.list k) = [b]
    · obtain ⟨s1, own', gs', e', I', _⟩ := listRemove_one I p k b hx
      rw [e] at e'
      obtain rfl := Option.some.inj e'
      exact ⟨_, _, _, I'⟩
    · rw [listRemove_abort I p k b hb hx] at e
      cases e
  | waitPush s s' out k b v sel _ hv hb e ih =>
    obtain ⟨own, gs, xs, I⟩ := ih
    obtain ⟨s1, own', e', I', _⟩ := waitPush_spec I k b v sel hv hb
    rw [e] at e'
    obtain rfl := Option.some.inj e'
    exact ⟨_, _, _, I'⟩
  | waitPop s s' out k n b zs ys _ hz e hy ih =>
    obtain ⟨own, gs, xs, I⟩ := ih
    obtain ⟨s1, own', e', I', _⟩ := waitPop_spec k _ I rfl
    rw [e' n] at e
    split at e
    · cases e
    · obtain ⟨rfl, rfl⟩ := Prod.mk.inj (Option.some.inj e)
      rw [I.holds_eq hz, I'.holds_eq hy, ents_fst, ents_fst, upd_self]
      exact ⟨_, _, _, I'⟩
  | waitRemove s out k b zs _ hz hb ih =>
    obtain ⟨own, gs, xs, I⟩ := ih
    rw [I.holds_eq hz, ents_fst] at hb
    rcases hb with hb | hb
    · obtain ⟨l, r, hx⟩ := List.append_of_mem hb
      exact ⟨_, _, _, (waitRemove_spec I k b l r hx).1⟩
    · rw [waitRemove_out I k b hb]
      exact ⟨_, _, _, I.congr fun x => ⟨fun h => h.elim (fun e => e ▸ hb) id, Or.inr⟩⟩
  | selectReset s out c _ ih =>
    obtain ⟨own, gs, xs, I⟩ := ih
    exact ⟨_, _, _, done_inv I _⟩
  | selectClear s out b _ ih =>
    obtain ⟨own, gs, xs, I⟩ := ih
    exact ⟨_, _, _, setSelect_inv I b false⟩

/-- The other queues, after an operation that changed queue `i`. -/
theorem others {s s' out out' own own' gs gs' xs ys} {i : QId} (I : Inv s out own gs xs)
    (I' : Inv s' out' own' gs' (upd xs i ys)) (h : ∀ j x, j ≠ i → x ∈ xs j → (s'.mem x).co = (s.mem x).co)
    (j : QId) (hj : j ≠ i) (zs) (hz : Holds s j zs) : Holds s' j zs := by
  have h1 := I'.holds j
  rw [upd_ne _ _ _ _ hj, ents_congr (fun x hx => h j x hj hx)] at h1
  rw [I.holds_eq hz]
  exact h1

/-- C25, well-formedness: at every reachable state every queue is a finite chain of distinct cells, each holding a
coroutine; a waiter list's count is its length; no cell is in two queues, or in a queue while a caller holds it. -/
theorem C25_wait_wf {s : St} {out : Nat → Prop} (h : Reachable s out) (i : QId) :
    ∃ xs, Holds s i xs ∧ (xs.map (·.1)).Nodup ∧ (∀ e ∈ xs, e.1 ≠ 0 ∧ e.2 ≠ 0 ∧ ¬ out e.1) ∧
      (∀ k, i = .list k → (s.q i).count = xs.length) ∧
      ∀ j ys, j ≠ i → Holds s j ys → ∀ e ∈ xs, e.1 ∉ ys.map (·.1) := by
  obtain ⟨own, gs, xs, I⟩ := reach_inv h
  have hmem : ∀ e ∈ ents s.mem (xs i), e.1 ∈ xs i ∧ e.2 = (s.mem e.1).co := by
    intro e he
    obtain ⟨a, ha, rfl⟩ := List.mem_map.1 he
    exact ⟨ha, rfl⟩
  refine ⟨_, I.holds i, by rw [ents_fst]; exact I.qNd i, ?_, ?_, ?_⟩
  · intro e he
    obtain ⟨h1, h2⟩ := hmem e he
    refine ⟨I.q_ne0 h1, by rw [h2]; exact I.qCo i _ h1, fun ho => ?_⟩
    have := (I.q i _).1 h1
    rw [(I.out _).1 ho] at this
    cases this
  · rintro k rfl
    rw [I.qCount, ents, List.length_map]
  · intro j ys hj hy e he hm
    rw [I.holds_eq hy, ents_fst] at hm
    have h1 := (I.q i _).1 (hmem e he).1
    rw [(I.q j _).1 hm] at h1
    exact hj (Place.inq.inj h1)

/-- C25, cells: a cell can always be had, whatever the caches hold; it is not one a queue or another caller has. -/
theorem C25_acquire {s : St} {out : Nat → Prop} (h : Reachable s out) (p a : Nat) (ha : a ≠ 0) (hl : s.live a = false) :
    ∃ b s', acquire s p a = some (b, s') ∧ b ≠ 0 ∧ ¬ out b ∧ (∀ i xs, Holds s i xs → b ∉ xs.map (·.1)) ∧
      ∀ i xs, Holds s i xs → Holds s' i xs := by
  obtain ⟨own, gs, xs, I⟩ := reach_inv h
  obtain ⟨b, s', own', gs', e, I', F, hnq, hno, hb, _⟩ := acquire_inv I p a ha hl
  refine ⟨b, s', e, hb, hno, ?_, ?_⟩
  · intro i zs hz hm
    rw [I.holds_eq hz, ents_fst] at hm
    exact hnq i ((I.q i b).1 hm)
  · intro i zs hz
    have h1 := I'.holds i
    rw [ents_congr (m := s.mem) (fun x hx => by rw [F.mem i x ((I.q i x).1 hx)])] at h1
    rw [I.holds_eq hz]
    exact h1

/-- C25, cells: a held cell can always be given back, and no queue notices. -/
theorem C25_release {s : St} {out : Nat → Prop} (h : Reachable s out) (p b : Nat) (hb : out b) :
    ∃ s', release s p b = some s' ∧ ∀ i xs, Holds s i xs → Holds s' i xs := by
  obtain ⟨own, gs, xs, I⟩ := reach_inv h
  obtain ⟨s', own', gs', e, I', F, _⟩ := release_inv I p b hb
  refine ⟨s', e, fun i zs hz => ?_⟩
  have h1 := I'.holds i
  rw [ents_congr (m := s.mem) (fun x hx => by rw [F.mem i x ((I.q i x).1 hx)])] at h1
  rw [I.holds_eq hz]
  exact h1

/-- C25, waiter lists: a coroutine pushed goes last. -/
theorem C25_list_push {s : St} {out : Nat → Prop} (h : Reachable s out) (p k v a : Nat) (hv : v ≠ 0) (ha : a ≠ 0)
    (hl : s.live a = false) {xs} (hx : Holds s (.list k) xs) :
    ∃ b s', listPush s p k v a = some s' ∧ Holds s' (.list k) (xs ++ [(b, v)]) ∧
      ∀ j ys, j ≠ .list k → Holds s j ys → Holds s' j ys := by
  obtain ⟨own, gs, zs, I⟩ := reach_inv h
  obtain ⟨b, s', own', gs', e, I', hco, _, hf⟩ := listPush_spec I p k v a hv ha hl
  refine ⟨b, s', e, ?_, fun j ys hj hy => others I I' (fun i x _ hx => (hf i x hx).1) j hj ys hy⟩
  have h1 := I'.holds (.list k)
  rw [upd_self] at h1
  rw [I.holds_eq hx]
  have : ents s'.mem (zs (.list k) ++ [b]) = ents s.mem (zs (.list k)) ++ [(b, v)] := by
    rw [← ents_congr (m' := s'.mem) (fun x hx => (hf _ x hx).1)]
    simp [ents, hco]
  rw [← this]
  exact h1

/-- C25, waiter lists: a coroutine pushed at the head goes first. -/
theorem C25_list_pushHead {s : St} {out : Nat → Prop} (h : Reachable s out) (p k v a : Nat) (hv : v ≠ 0) (ha : a ≠ 0)
    (hl : s.live a = false) {xs} (hx : Holds s (.list k) xs) :
    ∃ b s', listPushHead s p k v a = some s' ∧ Holds s' (.list k) ((b, v) :: xs) ∧
      ∀ j ys, j ≠ .list k → Holds s j ys → Holds s' j ys := by
  obtain ⟨own, gs, zs, I⟩ := reach_inv h
  obtain ⟨b, s', own', gs', e, I', hco, _, hf⟩ := listPushHead_spec I p k v a hv ha hl
  refine ⟨b, s', e, ?_, fun j ys hj hy => others I I' (fun i x _ hx => (hf i x hx).1) j hj ys hy⟩
  have h1 := I'.holds (.list k)
  rw [upd_self] at h1
  rw [I.holds_eq hx]
  have : ents s'.mem (b :: zs (.list k)) = (b, v) :: ents s.mem (zs (.list k)) := by
    rw [← ents_congr (m' := s'.mem) (fun x hx => (hf _ x hx).1)]
    simp [ents, hco]
  rw [← this]
  exact h1

/-- C25, waiter lists: the first coroutine is the one popped; nothing else leaves. -/
theorem C25_list_pop {s : St} {out : Nat → Prop} (h : Reachable s out) (p k b v : Nat) {xs}
    (hx : Holds s (.list k) ((b, v) :: xs)) :
    ∃ s', listPop s p k = some (v, s') ∧ Holds s' (.list k) xs ∧
      ∀ j ys, j ≠ .list k → Holds s j ys → Holds s' j ys := by
  obtain ⟨own, gs, zs, I⟩ := reach_inv h
  have he := I.holds_eq hx
  cases hz : zs (.list k) with
  | nil => rw [hz] at he; cases he
  | cons c t =>
    rw [hz] at he
    obtain ⟨h1, h2⟩ := List.cons.inj he
    obtain ⟨rfl, rfl⟩ := Prod.mk.inj h1
    obtain ⟨s', own', gs', e, I', _, hf⟩ := listPop_spec I p k b t hz
    have hnd := I.qNd (.list k)
    rw [hz] at hnd
    refine ⟨s', e, ?_, fun j ys hj hy => others I I' (fun i x hi hxi => (hf i x hxi ?_).1) j hj ys hy⟩
    · have h3 := I'.holds (.list k)
      rw [upd_self] at h3
      rw [h2]
      show Holds s' _ (ents s.mem t)
      rw [← ents_congr (m' := s'.mem) (fun x hx => (hf (.list k) x (by rw [hz]; simp [hx])
        (fun e => (List.nodup_cons.1 hnd).1 (e ▸ hx))).1)]
      exact h3
    · rintro rfl
      have h4 := (I.q i _).1 hxi
      rw [(I.q (.list k) _).1 (by rw [hz]; simp)] at h4
      exact hi (Place.inq.inj h4).symm

/-- C25, waiter lists: an empty list gives NULL and is left as it is. -/
theorem C25_list_pop_empty {s : St} {out : Nat → Prop} (h : Reachable s out) (p k : Nat) (hx : Holds s (.list k) []) :
    listPop s p k = some (0, s) := by
  obtain ⟨own, gs, zs, I⟩ := reach_inv h
  have he := I.holds_eq hx
  refine listPop_nil I p k ?_
  cases hz : zs (.list k) with
  | nil => rfl
  | cons c t => rw [hz] at he; cases he

/-- C25, channel queues: a waiter pushed goes last. -/
theorem C25_wait_push {s : St} {out : Nat → Prop} (h : Reachable s out) (k b v : Nat) (sel : Bool) (hv : v ≠ 0)
    (hb : out b) {xs} (hx : Holds s (.wait k) xs) :
    ∃ s', waitPush s k b v sel = some s' ∧ Holds s' (.wait k) (xs ++ [(b, v)]) ∧ (s'.mem b).isSelect = sel ∧
      ∀ j ys, j ≠ .wait k → Holds s j ys → Holds s' j ys := by
  obtain ⟨own, gs, zs, I⟩ := reach_inv h
  obtain ⟨s', own', e, I', hco, hse, _, hf⟩ := waitPush_spec I k b v sel hv hb
  refine ⟨s', e, ?_, hse, fun j ys hj hy => others I I' (fun i x _ hx => (hf i x hx).1) j hj ys hy⟩
  have h1 := I'.holds (.wait k)
  rw [upd_self] at h1
  rw [I.holds_eq hx]
  have : ents s'.mem (zs (.wait k) ++ [b]) = ents s.mem (zs (.wait k)) ++ [(b, v)] := by
    rw [← ents_congr (m' := s'.mem) (fun x hx => (hf _ x hx).1)]
    simp [ents, hco]
  rw [← this]
  exact h1

theorem dropWhile_all {α} {p : α → Bool} {l : List α} (h : ∀ e ∈ l, p e = true) : l.dropWhile p = [] := by
  induction l with
  | nil => rfl
  | cons a t ih => rw [List.dropWhile_cons_of_pos (h a (by simp)), ih fun e he => h e (by simp [he])]

theorem takeWhile_all {α} {p : α → Bool} {l : List α} (h : ∀ e ∈ l, p e = true) : l.takeWhile p = l := by
  induction l with
  | nil => rfl
  | cons a t ih => rw [List.takeWhile_cons_of_pos (h a (by simp)), ih fun e he => h e (by simp [he])]

theorem loser_lost (s : St) (l : List Nat) : (ents s.mem l).dropWhile (loser s) = ents s.mem (l.dropWhile (lost s)) ∧
    (ents s.mem l).takeWhile (loser s) = ents s.mem (l.takeWhile (lost s)) := by
  induction l with
  | nil => exact ⟨rfl, rfl⟩
  | cons a t ih =>
    by_cases h : lost s a = true
    · have h' : loser s (a, (s.mem a).co) = true := h
      constructor
      · show List.dropWhile _ ((a, (s.mem a).co) :: ents s.mem t) = _
        rw [List.dropWhile_cons_of_pos h', List.dropWhile_cons_of_pos h]; exact ih.1
      · show List.takeWhile _ ((a, (s.mem a).co) :: ents s.mem t) = _
        rw [List.takeWhile_cons_of_pos h', List.takeWhile_cons_of_pos h, ih.2]; rfl
    · have h' : ¬ loser s (a, (s.mem a).co) = true := h
      constructor
      · show List.dropWhile _ ((a, (s.mem a).co) :: ents s.mem t) = _
        rw [List.dropWhile_cons_of_neg h', List.dropWhile_cons_of_neg h]; rfl
      · show List.takeWhile _ ((a, (s.mem a).co) :: ents s.mem t) = _
        rw [List.takeWhile_cons_of_neg h', List.takeWhile_cons_of_neg h]; rfl

/-- C25, channel queues: a wake-up passes over the entries of selects already decided and takes the first other one,
deciding its select; the rest stay, in order.  It ends within one round more than the entries passed over. -/
theorem C25_wait_pop {s : St} {out : Nat → Prop} (h : Reachable s out) (k : Nat) {xs ys} {b v : Nat}
    (hx : Holds s (.wait k) (xs ++ (b, v) :: ys)) (hl : ∀ e ∈ xs, loser s e = true) (hb : loser s (b, v) = false) :
    ∃ s', (∀ n, xs.length < n → waitPop k n s = some (b, s')) ∧ Holds s' (.wait k) ys ∧
      (∀ c, s'.done c = true ↔ s.done c = true ∨ ((s.mem b).isSelect = true ∧ c = v)) ∧
      ∀ j zs, j ≠ .wait k → Holds s j zs → Holds s' j zs := by
  obtain ⟨own, gs, zs, I⟩ := reach_inv h
  have he := I.holds_eq hx
  have hdw := (loser_lost s (zs (.wait k))).1
  have htw := (loser_lost s (zs (.wait k))).2
  rw [← he] at hdw htw
  have hd1 : (xs ++ (b, v) :: ys).dropWhile (loser s) = (b, v) :: ys := by
    rw [List.dropWhile_append, if_pos (by
      rw [dropWhile_all hl]; rfl),
      List.dropWhile_cons_of_neg (by simp [hb])]
  have ht1 : (xs ++ (b, v) :: ys).takeWhile (loser s) = xs := by
    rw [List.takeWhile_append, if_pos (by
      rw [takeWhile_all hl]), List.takeWhile_cons_of_neg (by simp [hb]), List.append_nil]
  rw [hd1] at hdw
  rw [ht1] at htw
  obtain ⟨s', own', e, I', hf, hdn⟩ := waitPop_spec k _ I rfl
  cases hz : (zs (.wait k)).dropWhile (lost s) with
  | nil => rw [hz] at hdw; cases hdw
  | cons c t =>
    rw [hz] at hdw e I' hdn
    obtain ⟨h1, h2⟩ := List.cons.inj hdw
    obtain ⟨rfl, rfl⟩ := Prod.mk.inj h1
    refine ⟨s', ?_, ?_, ?_, fun j ws hj hw => others I I' (fun _ x _ _ => (hf x).1) j hj ws hw⟩
    · intro n hn
      rw [e n, if_neg (by
        have : xs.length = ((zs (.wait k)).takeWhile (lost s)).length := by rw [htw, ents, List.length_map]
        omega)]
      rfl
    · have h3 := I'.holds (.wait k)
      rw [upd_self, List.tail_cons, ents_congr (m := s.mem) (fun x _ => (hf x).1)] at h3
      rw [h2]; exact h3
    · intro d
      rw [hdn d]
      simp

/-- C25, channel queues: with nobody left to wake the answer is NULL and the queue is emptied. -/
theorem C25_wait_pop_empty {s : St} {out : Nat → Prop} (h : Reachable s out) (k : Nat) {xs}
    (hx : Holds s (.wait k) xs) (hl : ∀ e ∈ xs, loser s e = true) :
    ∃ s', (∀ n, xs.length < n → waitPop k n s = some (0, s')) ∧ Holds s' (.wait k) [] ∧ s'.done = s.done ∧
      ∀ j zs, j ≠ .wait k → Holds s j zs → Holds s' j zs := by
  obtain ⟨own, gs, zs, I⟩ := reach_inv h
  have he := I.holds_eq hx
  have hdw := (loser_lost s (zs (.wait k))).1
  have htw := (loser_lost s (zs (.wait k))).2
  rw [← he] at hdw htw
  rw [dropWhile_all hl] at hdw
  rw [takeWhile_all hl] at htw
  obtain ⟨s', own', e, I', hf, hdn⟩ := waitPop_spec k _ I rfl
  cases hz : (zs (.wait k)).dropWhile (lost s) with
  | cons c t => rw [hz] at hdw; cases hdw
  | nil =>
    rw [hz] at e I' hdn
    refine ⟨s', ?_, ?_, ?_, fun j ws hj hw => others I I' (fun _ x _ _ => (hf x).1) j hj ws hw⟩
    · intro n hn
      rw [e n, if_neg (by
        have : xs.length = ((zs (.wait k)).takeWhile (lost s)).length := by rw [htw, ents, List.length_map]
        omega)]
      rfl
    · have h3 := I'.holds (.wait k)
      rw [upd_self] at h3
      exact h3
    · funext d
      rw [hdn d]; simp

/-- C25, channel queues: removing an entry anywhere leaves the others, in order. -/
theorem C25_wait_remove {s : St} {out : Nat → Prop} (h : Reachable s out) (k b v : Nat) {xs ys}
    (hx : Holds s (.wait k) (xs ++ (b, v) :: ys)) :
    Holds (waitRemove s k b) (.wait k) (xs ++ ys) ∧
      ∀ j zs, j ≠ .wait k → Holds s j zs → Holds (waitRemove s k b) j zs := by
  obtain ⟨own, gs, zs, I⟩ := reach_inv h
  have he := I.holds_eq hx
  obtain ⟨l, r, hz, h1, h2⟩ := List.map_eq_append_iff.1 he.symm
  cases r with
  | nil => cases h2
  | cons c r =>
    obtain ⟨h3, h4⟩ := List.cons.inj h2
    obtain ⟨rfl, _⟩ := Prod.mk.inj h3
    obtain ⟨I', _, hf⟩ := waitRemove_spec I k c l r hz
    refine ⟨?_, fun j ws hj hw => others I I' (fun _ x _ _ => (hf x).1) j hj ws hw⟩
    have h5 := I'.holds (.wait k)
    rw [upd_self, ents_congr (m := s.mem) (fun x _ => (hf x).1)] at h5
    rw [← h1, ← h4, ← List.map_append]
    exact h5

/-- C25, channel queues: removing a cell some wake-up has taken already changes nothing. -/
theorem C25_wait_remove_gone {s : St} {out : Nat → Prop} (h : Reachable s out) (k b : Nat) (hb : out b) :
    waitRemove s k b = s := by
  obtain ⟨own, gs, zs, I⟩ := reach_inv h
  exact waitRemove_out I k b hb

/-- C25, `linkco_list_remove` (which nothing calls) works on the sole entry of a list.
What is missing: any list of two entries or more, where it aborts (below). -/
theorem C25_list_remove_partial {s : St} {out : Nat → Prop} (h : Reachable s out) (p k b v : Nat)
    (hx : Holds s (.list k) [(b, v)]) :
    ∃ s', listRemove s p k b = some s' ∧ Holds s' (.list k) [] ∧
      ∀ j ys, j ≠ .list k → Holds s j ys → Holds s' j ys := by
  obtain ⟨own, gs, zs, I⟩ := reach_inv h
  have he := I.holds_eq hx
  have hz : zs (.list k) = [b] := by
    have := congrArg (List.map (·.1)) he
    rw [ents_fst] at this
    exact this.symm
  obtain ⟨s', own', gs', e, I', _, hf⟩ := listRemove_one I p k b hz
  refine ⟨s', e, ?_, fun j ys hj hy => others I I' (fun i x hi hxi => (hf i x hxi ?_).1) j hj ys hy⟩
  · have h3 := I'.holds (.list k)
    rw [upd_self] at h3
    exact h3
  · rintro rfl
    have h4 := (I.q i _).1 hxi
    rw [(I.q (.list k) _).1 (by rw [hz]; simp)] at h4
    exact hi (Place.inq.inj h4).symm

theorem holds_init (i : QId) : Holds init i [] := Chain.done

theorem live_fresh {s : St} {p k v a : Nat} {s'} (_ : s = init) (h : listPush s p k v a = some s') (c : Nat)
    (hc : c ≠ a) : s'.live c = false := by
  subst s
  simp [listPush, acquire, borrow, init, cacheMax, fresh, setCache, upd, setCo, setQ] at h
  subst h
  show upd (fun _ => false) a true c = false
  rw [upd_ne _ _ _ _ hc]

/-- C25 fails for `linkco_list_remove`: with two coroutines waiting it aborts on either of them, since the cell's
links are still set when it is given back (/repo/runtime/linkco.h:140-161, linkco.c:44-46). -/
theorem C25_list_remove_counterexample :
    ∃ s out xs, Reachable s out ∧ Holds s (.list 0) xs ∧ xs.map (·.2) = [7, 8] ∧
      ∀ p, ∀ e ∈ xs, listRemove s p 0 e.1 = none := by
  obtain ⟨b, s1, e1, h1, _⟩ := C25_list_push Reachable.init 0 0 7 100 (by decide) (by decide) rfl (holds_init (.list 0))
  have r1 := Reachable.push _ _ _ 0 0 7 100 Reachable.init (by decide) (by decide) rfl e1
  have hl := live_fresh rfl e1 101 (by decide)
  obtain ⟨c, s2, e2, h2, _⟩ := C25_list_push r1 0 0 8 101 (by decide) (by decide) hl h1
  have r2 := Reachable.push _ _ _ 0 0 8 101 r1 (by decide) (by decide) hl e2
  refine ⟨s2, _, _, r2, h2, rfl, fun p e he => ?_⟩
  obtain ⟨own, gs, zs, I⟩ := reach_inv r2
  have hz := congrArg (List.map (·.1)) (I.holds_eq h2)
  rw [ents_fst] at hz
  refine listRemove_abort I p 0 e.1 ?_ ?_
  · rw [← hz]; exact List.mem_map_of_mem he
  · rw [← hz]
    intro hh
    cases hh

/- Concrete runs.  Two coroutines wait on a mutex; a third, pushed at the head, is the first to be popped. -/
example : ∃ s, (((listPush init 0 0 7 100).bind fun s => listPush s 1 0 8 101).bind fun s =>
    (listPushHead s 0 0 9 102)) = some s ∧ (listPop s 3 0).map (·.1) = some 9 ∧
      ((listPop s 3 0).bind fun x => listPop x.2 3 0).map (·.1) = some 7 := ⟨_, rfl, rfl, rfl⟩

/- A select waits on two channels; the wake-up on one makes the other pass it over and wake the next. -/
example : ∃ s, ((((acquire init 0 100).bind fun (b, s) => waitPush s 0 b 7 true).bind fun s =>
      (acquire s 0 101).bind fun (b, s) => waitPush s 1 b 7 true).bind fun s =>
      (acquire s 0 102).bind fun (b, s) => waitPush s 1 b 8 false) = some s ∧
    (waitPop 0 5 s).map (·.1) = some 100 ∧
    ((waitPop 0 5 s).bind fun x => waitPop 1 5 x.2).map (·.1) = some 102 := ⟨_, rfl, rfl, rfl⟩

end Nature.Linkco
