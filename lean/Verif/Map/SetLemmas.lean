import Verif.Map.Set
/-! Without deletions a set is a map to unit. -/
namespace Nature.Map
open Nature
variable {K I : Type} [DecidableEq I]

/-- The set inside a map to unit. -/
def ofMap (m : Map K Unit) : HSet K := ⟨m.cap, m.len, m.table, m.keys⟩

/-- No tombstones, and sizes in range. -/
def NoDead (m : Map K Unit) : Prop := (∀ w ∈ m.table, dead w = false) ∧ m.keys.length < 4611686018427387904

theorem Inv.noDead {o : KeyOps K I} {m : Map K Unit} (h : Inv o m 0) : NoDead m := by
  refine ⟨?_, by have := h.kl; have := h.capB; omega⟩
  have := Nat.le_zero.1 h.dead
  rw [List.countP_eq_zero] at this
  intro w hw
  simpa using this w hw

theorem set_unit (l : List Unit) (i : Nat) : l.set i () = l := by
  apply List.ext_getElem (by simp)
  intros; rfl

theorem addCore_of {o : KeyOps K I} {m : Map K Unit} (hn : NoDead m) {k : K} {r : Map K Unit × Nat} (h : assignCore o m k = .ok r) :
    addCore o (ofMap m) k = .ok (ofMap r.1, decide (r.1.len = m.len + 1)) ∧ NoDead r.1 := by
  unfold assignCore at h
  unfold addCore
  cases hf : find o m.table m.cap m.keys k with
  | ok x =>
    rw [hf, Res.bind_ok] at h
    rw [show find o (ofMap m).table (ofMap m).cap (ofMap m).keys k = .ok x from hf, Res.bind_ok]
    cases hw : word m.table x with
    | ok w =>
      rw [hw, Res.bind_ok] at h
      rw [show word (ofMap m).table x = .ok w from hw, Res.bind_ok]
      have hwm : w ∈ m.table := by
        unfold word at hw
        split at hw
        · rename_i w' hw'; cases hw; exact List.mem_of_getElem? hw'
        · cases hw
      have hdead := hn.1 w hwm
      simp only at h ⊢
      have hset : ∀ d, d < m.keys.length → NoDead { m with len := m.len, table := m.table.set x (mkWord d), keys := m.keys.set d k } := by
        intro d hd
        refine ⟨?_, by simpa using hn.2⟩
        intro u hu
        rcases List.mem_or_eq_of_mem_set hu with h1 | h1
        · exact hn.1 u h1
        · subst h1
          unfold dead
          rw [mkWord_del (Nat.lt_trans hd hn.2)]; simp
      by_cases hs : isSet w = false
      · simp only [hs, if_true] at h ⊢
        by_cases hd : m.len < m.keys.length
        · rw [if_pos hd] at h
          cases h
          rw [if_pos (by exact hd)]
          exact ⟨by simp [ofMap], hset _ hd⟩
        · rw [if_neg hd] at h; cases h
      · have hdel : isDeleted w = false := by
          unfold dead at hdead
          cases h1 : isSet w
          · exact absurd h1 hs
          · rw [h1] at hdead; simpa using hdead
        have hs' : isSet w = true := by simpa using hs
        simp only [hs', if_false, hdel, Bool.false_eq_true, Bool.true_eq_false] at h ⊢
        by_cases hd : dataIndex w < m.keys.length
        · rw [if_pos hd] at h
          cases h
          rw [if_pos (by exact hd)]
          exact ⟨by simp [ofMap], hset _ hd⟩
        · rw [if_neg hd] at h; cases h
    | _ => rw [hw] at h; cases h
  | _ => rw [hf] at h; cases h

theorem storeVal_unit {r : Map K Unit × Nat} {m : Map K Unit} (h : storeVal r () = .ok m) : m = r.1 := by
  unfold storeVal at h
  split at h
  · cases h; rw [set_unit]
  · cases h

theorem setRehash_of {o : KeyOps K I} {old m m' : Map K Unit} (hn : NoDead m) {d : Nat} (h : rehash o old m d = .ok m') :
    setRehash o (ofMap old) (ofMap m) d = .ok (ofMap m') ∧ NoDead m' := by
  unfold rehash at h
  unfold setRehash
  cases hc : cell old.keys d with
  | ok k =>
    rw [hc, Res.bind_ok] at h
    rw [show cell (ofMap old).keys d = .ok k from hc, Res.bind_ok]
    cases hf : find o old.table old.cap old.keys k with
    | ok x =>
      rw [hf, Res.bind_ok] at h
      rw [show find o (ofMap old).table (ofMap old).cap (ofMap old).keys k = .ok x from hf, Res.bind_ok]
      cases hw : word old.table x with
      | ok w =>
        rw [hw, Res.bind_ok] at h
        rw [show word (ofMap old).table x = .ok w from hw, Res.bind_ok]
        by_cases hd : isDeleted w = true
        · rw [if_pos hd] at h ⊢
          cases h; exact ⟨rfl, hn⟩
        · rw [if_neg hd] at h ⊢
          split at h
          · cases h
          · cases hv : cell old.vals d with
            | ok v =>
              rw [hv, Res.bind_ok] at h
              cases ha : assignCore o m k with
              | ok r =>
                rw [ha, Res.bind_ok] at h
                have := storeVal_unit h
                subst this
                obtain ⟨e, hn'⟩ := addCore_of hn ha
                rw [e, Res.bind_ok]
                exact ⟨rfl, hn'⟩
              | _ => rw [ha] at h; cases h
            | _ => rw [hv] at h; cases h
      | _ => rw [hw] at h; cases h
    | _ => rw [hf] at h; cases h
  | _ => rw [hc] at h; cases h

theorem setRehashFrom_of {o : KeyOps K I} {old : Map K Unit} (n d : Nat) {m m' : Map K Unit} (hn : NoDead m)
    (h : rehashFrom o old n d m = .ok m') : setRehashFrom o (ofMap old) n d (ofMap m) = .ok (ofMap m') := by
  induction n generalizing d m with
  | zero => cases h; rfl
  | succ n ih =>
    unfold rehashFrom at h
    cases hr : rehash o old m d with
    | ok m1 =>
      rw [hr, Res.bind_ok] at h
      obtain ⟨e, hn'⟩ := setRehash_of hn hr
      unfold setRehashFrom
      rw [e, Res.bind_ok]
      exact ih _ hn' h
    | _ => rw [hr] at h; cases h

theorem needGrow_ofMap (m : Map K Unit) : needGrow (ofMap m).len (ofMap m).cap = needGrow m.len m.cap := rfl

/-- Adding to a set with no tombstones is assigning in the map. -/
theorem setAdd_of {o : KeyOps K I} {zk : K} {m m' : Map K Unit} (hi : Inv o m 0) (hl : m.len < 2147483648) {k : K}
    (h : assign o zk () m k () = .ok m') :
    setAdd o zk (ofMap m) k = .ok (ofMap m', decide (m'.len = m.len + 1)) := by
  have hc : m.cap ≠ 0 := by have := hi.cap16; omega
  unfold assign at h
  unfold setAdd
  simp only [show (ofMap m).cap = m.cap from rfl, hc, if_false] at h ⊢
  by_cases hg : needGrow m.len m.cap
  · obtain ⟨m1, e1, hi1, hl1, _⟩ := grow_spec hi hg hl zk ()
    have e2 : setGrow o zk (ofMap m) = .ok (ofMap m1) := by
      unfold grow at e1
      unfold setGrow
      rw [if_neg (by omega)] at e1
      rw [if_neg (by exact (by omega : ¬ m.len ≥ 2147483648))]
      have := hi.cap16
      unfold needGrow at hg
      exact setRehashFrom_of _ _ (inv_empty o (m.cap * 2) (by omega) (by omega) zk ()).noDead e1
    rw [if_pos hg, e1, Res.bind_ok] at h
    rw [show (if needGrow (ofMap m).len m.cap then setGrow o zk (ofMap m) else .ok (ofMap m)) = .ok (ofMap m1) by
      rw [if_pos (by exact hg), e2], Res.bind_ok]
    cases ha : assignCore o m1 k with
    | ok r =>
      rw [ha, Res.bind_ok] at h
      have := storeVal_unit h
      subst this
      rw [(addCore_of hi1.noDead ha).1, hl1]
    | _ => rw [ha] at h; cases h
  · rw [if_neg hg, Res.bind_ok] at h
    rw [show (if needGrow (ofMap m).len m.cap then setGrow o zk (ofMap m) else .ok (ofMap m)) = .ok (ofMap m) by
      rw [if_neg (by exact hg)], Res.bind_ok]
    cases ha : assignCore o m k with
    | ok r =>
      rw [ha, Res.bind_ok] at h
      have := storeVal_unit h
      subst this
      rw [(addCore_of hi.noDead ha).1]
    | _ => rw [ha] at h; cases h

theorem setContains_of {o : KeyOps K I} (m : Map K Unit) (k : K) : setContains o (ofMap m) k = contains o m k := rfl

/-- The set holds exactly the keys of `s`. -/
def SetAbs (m : Map K Unit) (s : List K) : Prop :=
  ∀ k, k ∈ s ↔ ∃ i : Nat, i < m.len ∧ m.keys[i]? = some k

theorem add_refines [DecidableEq K] {o : KeyOps K I} (hinj : ∀ a b, o.img a = o.img b → a = b) {m : Map K Unit} {s : List K} (hi : Inv o m 0) (ha : SetAbs m s)
    (zk k : K) (hl : m.len < 2147483648) :
    ∃ m', setAdd o zk (ofMap m) k = .ok (ofMap m', decide (k ∉ s)) ∧ Inv o m' 0 ∧ SetAbs m' (if k ∈ s then s else k :: s) ∧
      m'.len ≤ m.len + 1 := by
  rcases assign_spec hi zk () k () hl with ⟨d, k', m', hd, hk, he, e, hi', hl', hks, _⟩ | ⟨hab, ⟨m', e, hi', hl', hks, _⟩ | ⟨_, hcap⟩⟩
  · have hkk := hinj _ _ he
    subst hkk
    have hmem : k' ∈ s := (ha k').2 ⟨d, hd, hk⟩
    refine ⟨m', ?_, hi', ?_, by omega⟩
    · rw [setAdd_of hi hl e, hl']
      simp [hmem]
    · rw [if_pos hmem]
      intro x
      rw [ha x, hl']
      constructor
      · rintro ⟨i, h1, h2⟩
        refine ⟨i, h1, ?_⟩
        rw [hks i h1]
        split
        · rename_i hid; subst hid; rw [hk] at h2; exact h2
        · exact h2
      · rintro ⟨i, h1, h2⟩
        rw [hks i h1] at h2
        split at h2
        · rename_i hid; subst hid; exact ⟨i, h1, by rw [hk]; exact h2⟩
        · exact ⟨i, h1, h2⟩
  · have hmem : k ∉ s := by
      intro hm
      obtain ⟨i, h1, h2⟩ := (ha k).1 hm
      exact hab i k h1 h2 rfl
    refine ⟨m', ?_, hi', ?_, by omega⟩
    · rw [setAdd_of hi hl e, hl']
      simp [hmem]
    · rw [if_neg hmem]
      intro x
      rw [List.mem_cons, ha x, hl']
      constructor
      · rintro (rfl | ⟨i, h1, h2⟩)
        · exact ⟨m.len, by omega, by rw [hks _ (by omega), if_pos rfl]⟩
        · exact ⟨i, by omega, by rw [hks _ (by omega), if_neg (by omega)]; exact h2⟩
      · rintro ⟨i, h1, h2⟩
        rw [hks i h1] at h2
        split at h2
        · left; cases h2; rfl
        · exact Or.inr ⟨i, by omega, h2⟩
  · have := hi.load; have := hi.cap16; omega

/-- The set starts zeroed or holds `s`. -/
def SetGood (o : KeyOps K I) (h : HSet K) (s : List K) : Prop :=
  (h = setZeroed ∧ s = []) ∨ ∃ m : Map K Unit, h = ofMap m ∧ Inv o m 0 ∧ SetAbs m s

/-- The map to unit inside a new set. -/
def mNew (zk : K) : Map K Unit := ⟨100, 0, List.replicate 100 0#64, List.replicate 100 zk, List.replicate 100 ()⟩

theorem setGood_new (o : KeyOps K I) (zk : K) : SetGood o (setNew zk) [] := by
  refine Or.inr ⟨mNew zk, rfl, inv_empty o 100 (by omega) (by omega) zk (), ?_⟩
  intro k
  simp [mNew]

theorem contains_refines [DecidableEq K] {o : KeyOps K I} (hinj : ∀ a b, o.img a = o.img b → a = b) {m : Map K Unit} {s : List K}
    (hi : Inv o m 0) (ha : SetAbs m s) (k : K) : setContains o (ofMap m) k = .ok (decide (k ∈ s)) := by
  rw [setContains_of]
  rcases contains_spec hi k with ⟨d, k', hd, hk, he, e⟩ | ⟨hab, e | ⟨_, hcap⟩⟩
  · have := hinj _ _ he
    subst this
    rw [e, decide_eq_true ((ha k').2 ⟨d, hd, hk⟩)]
  · rw [e, decide_eq_false]
    intro hm
    obtain ⟨i, h1, h2⟩ := (ha k).1 hm
    exact hab i k h1 h2 rfl
  · have := hi.load; have := hi.cap16; omega

/-- After deleting `k` from such a set, `k` is not a member. -/
theorem delete_contains {o : KeyOps K I} {m : Map K Unit} (hi : Inv o m 0) (k : K) :
    ∃ s', setDelete o (ofMap m) k = .ok s' ∧ setContains o s' k = .ok false := by
  have hc : m.cap ≠ 0 := by have := hi.cap16; omega
  have hc0 : 0 < m.cap := by omega
  have hdead := hi.noDead
  -- the slot that is cleared
  have key : ∃ x w, find o m.table m.cap m.keys k = .ok x ∧ m.table[x]? = some w ∧
      (∀ (h : Nat) u, (m.table.set x (w &&& (1#64 <<< 62)))[h]? = some u → live u = true → ∃ k', m.keys[dataIndex u]? = some k' ∧ o.img k' ≠ o.img k) := by
    have hz : ∀ w : Word, live (w &&& (1#64 <<< 62)) = false := by
      intro w
      unfold live
      have : isSet (w &&& (1#64 <<< 62)) = false := by
        rw [isSet_eq, BitVec.toNat_and, Nat.testBit_and]
        have : (1#64 <<< 62).toNat.testBit 63 = false := by decide
        rw [this]; simp
      rw [this]; rfl
    rcases lookup_slot hi k with ⟨d, k', x, hd, hk, he, hf, hw⟩ | ⟨hab, ⟨x, w, hf, hw, hl⟩ | ⟨_, _, hcap⟩⟩
    · refine ⟨x, _, hf, hw, ?_⟩
      intro h u hu hlu
      rcases getElem?_set' hu with ⟨_, e, _⟩ | ⟨e1, e2⟩
      · subst e; rw [hz] at hlu; cases hlu
      · have hlt := hi.lt h u e2 hlu
        have hkl : dataIndex u < m.keys.length := by have := hi.kl; have := hi.load; omega
        refine ⟨_, List.getElem?_eq_getElem hkl, ?_⟩
        intro heq
        have hs := hi.small (Nat.le_of_lt hd)
        have := hi.dist _ _ _ _ hlt hd (List.getElem?_eq_getElem hkl) hk (by rw [heq, he])
        exact e1 (hi.inj _ _ _ _ e2 hw hlu (mkWord_live hs) (by rw [mkWord_index hs]; exact this))
    · refine ⟨x, w, hf, hw, ?_⟩
      intro h u hu hlu
      rcases getElem?_set' hu with ⟨_, e, _⟩ | ⟨e1, e2⟩
      · subst e; rw [hz] at hlu; cases hlu
      · have hlt := hi.lt h u e2 hlu
        have hkl : dataIndex u < m.keys.length := by have := hi.kl; have := hi.load; omega
        exact ⟨_, List.getElem?_eq_getElem hkl, hab _ _ hlt (List.getElem?_eq_getElem hkl)⟩
    · have := hi.load; have := hi.cap16; omega
  obtain ⟨x, w, hf, hw, hall⟩ := key
  refine ⟨⟨m.cap, (m.len + 18446744073709551615) % 18446744073709551616, m.table.set x (w &&& (1#64 <<< 62)), m.keys⟩, ?_, ?_⟩
  · unfold setDelete
    rw [if_neg (by exact hc), show find o (ofMap m).table (ofMap m).cap (ofMap m).keys k = .ok x from hf, Res.bind_ok,
      show word (ofMap m).table x = .ok w from word_ok hw, Res.bind_ok]
    rfl
  · unfold setContains
    rw [if_neg (by exact hc)]
    simp only
    have hx := (List.getElem?_eq_some_iff.1 hw).1
    have := findLoop_miss o (m.table.set x (w &&& (1#64 <<< 62))) m.cap m.keys k (o.hash (o.img k)) hc0 (by rw [List.length_set, hi.tl]) hall
      m.cap 0 none (by omega)
    unfold find
    rw [← pos_zero hc0]
    rcases this with ⟨r, e, _, h2⟩ | ⟨_, h1⟩
    · obtain ⟨_, _, _, _, ⟨w', hw', hl'⟩, _⟩ := h2 rfl
      rw [e, Res.bind_ok, word_ok hw', Res.bind_ok]
      rcases not_live hl' with h | h
      · rw [if_pos h]
      · split
        · rfl
        · simp [h]
    · obtain ⟨j, hj, hjx⟩ := pos_surj hc0 (o.hash (o.img k)) (x := x) (by rw [← hi.tl]; exact hx)
      obtain ⟨u, hu, hsu⟩ := h1 j (Nat.zero_le _) hj
      rw [hjx, List.getElem?_set_self hx] at hu
      cases hu
      rw [isSet_eq, BitVec.toNat_and, Nat.testBit_and] at hsu
      have : (1#64 <<< 62).toNat.testBit 63 = false := by decide
      rw [this] at hsu; simp at hsu

/-- A history without deletions. -/
def NoDelete : List (SetOp K) → Prop
  | [] => True
  | .delete _ :: _ => False
  | _ :: ops => NoDelete ops

theorem setRun_refines [DecidableEq K] {o : KeyOps K I} (hinj : ∀ a b, o.img a = o.img b → a = b) (zk : K) (ops : List (SetOp K)) {h : HSet K} {s : List K}
    (hg : SetGood o h s) (hn : NoDelete ops) (hl : h.len + ops.length < 2147483648) :
    setImplRun o zk h ops = setSpecRun s ops := by
  induction ops generalizing h s with
  | nil => rfl
  | cons op ops ih =>
    cases op with
    | delete k => exact hn.elim
    | add k =>
      have : ∃ (h' : HSet K), setAdd o zk h k = .ok (h', decide (k ∉ s)) ∧ SetGood o h' (if k ∈ s then s else k :: s) ∧ h'.len ≤ h.len + 1 := by
        rcases hg with ⟨e1, e2⟩ | ⟨m, e, hi, ha⟩
        · subst e1 e2
          obtain ⟨m', h1, h2, h3, h4⟩ := add_refines (s := []) hinj (inv_empty o 100 (by omega) (by omega) zk ()) (by intro k; simp) zk k (by simp)
          exact ⟨ofMap m', h1, Or.inr ⟨m', rfl, h2, h3⟩, h4⟩
        · subst e
          obtain ⟨m', h1, h2, h3, h4⟩ := add_refines hinj hi ha zk k (by simp only [ofMap, List.length_cons] at hl; omega)
          exact ⟨ofMap m', h1, Or.inr ⟨m', rfl, h2, h3⟩, h4⟩
      obtain ⟨h', e, hg', hl'⟩ := this
      simp only [setImplRun, setSpecRun, e]
      rw [ih hg' hn (by simp only [List.length_cons] at hl; omega)]
    | contains k =>
      have : setContains o h k = .ok (decide (k ∈ s)) := by
        rcases hg with ⟨e1, e2⟩ | ⟨m, e, hi, ha⟩
        · subst e1 e2; simp [setContains, setZeroed]
        · subst e; exact contains_refines hinj hi ha k
      simp only [setImplRun, setSpecRun, this]
      rw [ih hg hn (by simp only [List.length_cons] at hl; omega)]

theorem setRun_delete [DecidableEq K] {o : KeyOps K I} (hinj : ∀ a b, o.img a = o.img b → a = b) (zk k : K) (ops : List (SetOp K)) {h : HSet K} {s : List K}
    (hg : SetGood o h s) (hn : NoDelete ops) (hl : h.len + ops.length < 2147483648) :
    setImplRun o zk h (ops ++ [.delete k, .contains k]) = setSpecRun s ops ++ [.unit, .bool false] := by
  induction ops generalizing h s with
  | nil =>
    rcases hg with ⟨e1, e2⟩ | ⟨m, e, hi, ha⟩
    · subst e1 e2; rfl
    · subst e
      obtain ⟨s', h1, h2⟩ := delete_contains hi k
      simp only [List.nil_append, setImplRun, h1, h2, setSpecRun]
  | cons op ops ih =>
    cases op with
    | delete k => exact hn.elim
    | add k1 =>
      have : ∃ (h' : HSet K), setAdd o zk h k1 = .ok (h', decide (k1 ∉ s)) ∧ SetGood o h' (if k1 ∈ s then s else k1 :: s) ∧ h'.len ≤ h.len + 1 := by
        rcases hg with ⟨e1, e2⟩ | ⟨m, e, hi, ha⟩
        · subst e1 e2
          obtain ⟨m', h1, h2, h3, h4⟩ := add_refines (s := []) hinj (inv_empty o 100 (by omega) (by omega) zk ()) (by intro k; simp) zk k1 (by simp)
          exact ⟨ofMap m', h1, Or.inr ⟨m', rfl, h2, h3⟩, h4⟩
        · subst e
          obtain ⟨m', h1, h2, h3, h4⟩ := add_refines hinj hi ha zk k1 (by simp only [ofMap, List.length_cons] at hl; omega)
          exact ⟨ofMap m', h1, Or.inr ⟨m', rfl, h2, h3⟩, h4⟩
      obtain ⟨h', e, hg', hl'⟩ := this
      simp only [List.cons_append, setImplRun, setSpecRun, e]
      rw [ih hg' hn (by simp only [List.length_cons] at hl; omega)]
    | contains k1 =>
      have : setContains o h k1 = .ok (decide (k1 ∈ s)) := by
        rcases hg with ⟨e1, e2⟩ | ⟨m, e, hi, ha⟩
        · subst e1 e2; simp [setContains, setZeroed]
        · subst e; exact contains_refines hinj hi ha k1
      simp only [List.cons_append, setImplRun, setSpecRun, this]
      rw [ih hg hn (by simp only [List.length_cons] at hl; omega)]

end Nature.Map
