import Verif.Chan.LockSpec
import Verif.Chan.LockLemmas
/-! C23: lock discipline of `select`. -/
namespace Nature.Chan
open Nature

theorem lockSeq_sorted (c : Nat) (cs : List Nat) (h : (c :: cs).Pairwise (· ≤ ·)) :
    (c :: lockSeq (some c) cs).Pairwise (· < ·) ∧ ∀ x, x ∈ lockSeq (some c) cs ↔ x ∈ cs ∧ x ≠ c := by
  induction cs generalizing c with
  | nil => exact ⟨List.pairwise_singleton _ _, by simp [lockSeq]⟩
  | cons c0 cs ih =>
    unfold lockSeq
    rw [List.pairwise_cons] at h
    by_cases hc : some c0 ≠ some c
    · rw [if_pos hc]
      have hne : c0 ≠ c := fun e => hc (by rw [e])
      have hlt : c < c0 := by have := h.1 c0 List.mem_cons_self; omega
      obtain ⟨h1, h2⟩ := ih c0 h.2
      refine ⟨List.pairwise_cons.2 ⟨fun x hx => ?_, h1⟩, fun x => ?_⟩
      · rcases List.mem_cons.1 hx with rfl | hx
        · exact hlt
        · have := (List.pairwise_cons.1 h1).1 x hx
          omega
      · rw [List.mem_cons, h2, List.mem_cons]
        constructor
        · rintro (rfl | ⟨h3, h4⟩)
          · exact ⟨Or.inl rfl, hne⟩
          · have := h.1 x (List.mem_cons_of_mem _ h3)
            have h5 := (List.pairwise_cons.1 h.2).1 x h3
            exact ⟨Or.inr h3, by omega⟩
        · rintro ⟨rfl | h3, h4⟩
          · exact Or.inl rfl
          · by_cases hx : x = c0
            · exact Or.inl hx
            · exact Or.inr ⟨h3, hx⟩
    · rw [if_neg hc]
      have : c0 = c := by
        by_cases h' : c0 = c
        · exact h'
        · exact absurd (fun e => h' (Option.some.inj e)) hc
      subst this
      obtain ⟨h1, h2⟩ := ih c0 h.2
      refine ⟨h1, fun x => ?_⟩
      rw [h2, List.mem_cons]
      constructor
      · rintro ⟨h3, h4⟩; exact ⟨Or.inr h3, h4⟩
      · rintro ⟨rfl | h3, h4⟩
        · exact absurd rfl h4
        · exact ⟨h3, h4⟩

theorem lockSeq_none_sorted (cs : List Nat) (h : cs.Pairwise (· ≤ ·)) :
    (lockSeq none cs).Pairwise (· < ·) ∧ ∀ x, x ∈ lockSeq none cs ↔ x ∈ cs := by
  cases cs with
  | nil => simp [lockSeq]
  | cons c cs =>
    obtain ⟨h1, h2⟩ := lockSeq_sorted c cs h
    have : lockSeq none (c :: cs) = c :: lockSeq (some c) cs := by rw [lockSeq, if_pos (by simp)]
    rw [this]
    refine ⟨h1, fun x => ?_⟩
    rw [List.mem_cons, List.mem_cons, h2]
    by_cases hx : x = c <;> simp [hx]

theorem lockSeq_snoc (c : Option Nat) (cs : List Nat) (x : Nat) :
    lockSeq c (cs ++ [x]) = lockSeq c cs ++ (if (cs.getLast?.or c) = some x then [] else [x]) := by
  induction cs generalizing c with
  | nil =>
    by_cases h : c = some x
    · subst h; simp [lockSeq]
    · have h' : ¬ some x = c := fun e => h e.symm
      simp [lockSeq, h, h']
  | cons y cs ih =>
    have hl : ((y :: cs).getLast?.or c) = cs.getLast?.or (some y) := by
      rw [List.getLast?_cons]
      cases cs.getLast? <;> rfl
    rw [List.cons_append, lockSeq, lockSeq, hl]
    by_cases h : some y ≠ c
    · rw [if_pos h, if_pos h, ih, List.cons_append]
    · rw [if_neg h, if_neg h, ih]
      have : some y = c := by by_cases h' : some y = c; exact h'; exact absurd h' h
      rw [this]

theorem unlockSeq_eq (cs : List Nat) (k : Nat) (hk : k ≤ cs.length) : unlockSeq cs k = (lockSeq none (cs.take k)).reverse := by
  induction k with
  | zero => rfl
  | succ i ih =>
    unfold unlockSeq
    have hci : cs[i]? = some cs[i] := List.getElem?_eq_getElem (by omega)
    rw [hci]
    simp only
    rw [List.take_add_one, hci]
    rw [show (some cs[i]).toList = [cs[i]] from rfl, lockSeq_snoc, Option.or_none, List.reverse_append, ← ih (by omega)]
    have hlast : (cs.take i).getLast? = if i = 0 then none else cs[i - 1]? := by
      rw [List.getLast?_eq_getElem?, List.length_take, Nat.min_eq_left (by omega)]
      by_cases h0 : i = 0
      · subst h0; simp
      · rw [if_neg h0, List.getElem?_take_of_lt (by omega)]
    rw [hlast]
    by_cases h0 : i = 0
    · subst h0
      simp [unlockSeq]
    · rw [if_neg h0]
      by_cases h : cs[i - 1]? = some cs[i]
      · rw [if_pos ⟨by omega, h⟩, if_pos h]; rfl
      · rw [if_neg (fun h' => h h'.2), if_neg h]; rfl

theorem parkSeq_some (l : Nat) (cs : List Nat) : parkSeq (some l) cs = l :: lockSeq (some l) cs := by
  induction cs generalizing l with
  | nil => rfl
  | cons c cs ih =>
    unfold parkSeq lockSeq
    by_cases h : c = l
    · subst h
      rw [if_neg (by simp), if_neg (by simp), ih]
    · rw [if_pos h, if_pos (fun e => h (Option.some.inj e)), ih]

theorem parkSeq_none (cs : List Nat) : parkSeq none cs = lockSeq none cs := by
  cases cs with
  | nil => rfl
  | cons c cs => unfold parkSeq; rw [parkSeq_some, lockSeq, if_pos (by simp)]

theorem Grouped.tail {c : Nat} {cs : List Nat} (h : Grouped (c :: cs)) : Grouped cs := by
  intro i j k x h1 h2 h3 h4
  have := h (i + 1) (j + 1) (k + 1) x (by omega) (by omega) (by simpa using h3) (by simpa using h4)
  simpa using this

theorem lockSeq_grouped (c : Nat) (cs : List Nat) (h : Grouped (c :: cs)) :
    (c :: lockSeq (some c) cs).Nodup ∧ ∀ x, x ∈ c :: lockSeq (some c) cs ↔ x ∈ c :: cs := by
  induction cs generalizing c with
  | nil => exact ⟨by simp [lockSeq], fun x => by simp [lockSeq]⟩
  | cons c0 cs ih =>
    obtain ⟨h1, h2⟩ := ih c0 h.tail
    unfold lockSeq
    by_cases hc : some c0 ≠ some c
    · rw [if_pos hc]
      have hne : c0 ≠ c := fun e => hc (by rw [e])
      refine ⟨List.nodup_cons.2 ⟨fun hm => ?_, h1⟩, fun x => by rw [List.mem_cons, h2, ← List.mem_cons]⟩
      rw [h2] at hm
      obtain ⟨k, hk⟩ := List.mem_iff_getElem?.1 hm
      cases k with
      | zero => exact hne (Option.some.inj hk)
      | succ k =>
        have := h 0 1 (k + 2) c (by omega) (by omega) rfl hk
        exact hne (Option.some.inj this)
    · rw [if_neg hc]
      have : c0 = c := by
        by_cases h' : c0 = c
        · exact h'
        · exact absurd (fun e => h' (Option.some.inj e)) hc
      subst this
      refine ⟨h1, fun x => ?_⟩
      rw [h2, List.mem_cons, List.mem_cons, List.mem_cons]
      constructor
      · rintro (h | h)
        · exact Or.inl h
        · exact Or.inr (Or.inr h)
      · rintro (h | h | h)
        · exact Or.inl h
        · exact Or.inl h
        · exact Or.inr h

theorem exec_append (held : List Nat) (xs ys : List LOp) : exec held (xs ++ ys) = (exec held xs).bind fun h => exec h ys := by
  induction xs generalizing held with
  | nil => rfl
  | cons x xs ih =>
    cases x with
    | lock c =>
      rw [List.cons_append, exec, exec]
      by_cases h : c ∈ held
      · rw [if_pos h, if_pos h]; rfl
      · rw [if_neg h, if_neg h, ih]
    | unlock c =>
      rw [List.cons_append, exec, exec]
      by_cases h : c ∈ held
      · rw [if_pos h, if_pos h, ih]
      · rw [if_neg h, if_neg h]; rfl

theorem exec_locks (l held : List Nat) (h : (l ++ held).Nodup) : exec held (l.map .lock) = some (l.reverse ++ held) := by
  induction l generalizing held with
  | nil => rfl
  | cons c l ih =>
    rw [List.map_cons, exec]
    simp only [List.cons_append, List.nodup_cons] at h
    rw [if_neg (fun hm => h.1 (List.mem_append_right _ hm)), ih]
    · simp
    · have := h.2
      rw [List.nodup_append] at this ⊢
      refine ⟨this.1, List.nodup_cons.2 ⟨fun hm => h.1 (List.mem_append_right _ hm), this.2.1⟩, fun a ha b hb => ?_⟩
      rcases List.mem_cons.1 hb with rfl | hb
      · rintro rfl; exact h.1 (List.mem_append_left _ ha)
      · exact this.2.2 a ha b hb

theorem exec_unlocks (l held : List Nat) (h : l.Perm held) : exec held (l.map .unlock) = some [] := by
  induction l generalizing held with
  | nil => rw [List.nil_perm.1 h]; rfl
  | cons c l ih =>
    rw [List.map_cons, exec, if_pos (h.mem_iff.1 List.mem_cons_self)]
    refine ih _ ?_
    have := h.erase c
    simpa using this

/-- C23: for any number of cases on any channels (repeated or not) and any random numbers, `select` computes a lock order in which it
locks every distinct channel once, by increasing address (one global order for all coroutines); and the path that releases the locks on
every return of `select` releases each of them once. -/
theorem C23_lock_unlock (a rnd : Nat → Nat) (n : Nat) :
    ∃ lo, lockOrder a rnd n = .ok lo ∧ lo.Perm (List.range n) ∧
      (lockSeq none (lo.map a)).Pairwise (· < ·) ∧ (∀ c, c ∈ lockSeq none (lo.map a) ↔ ∃ k, k < n ∧ a k = c) ∧
      exec [] ((lockSeq none (lo.map a)).map .lock ++ (unlockSeq (lo.map a) n).map .unlock) = some [] := by
  obtain ⟨lo, e, h1, h2⟩ := lockOrder_spec a rnd n
  obtain ⟨h3, h4⟩ := lockSeq_none_sorted (lo.map a) h2
  have hlen : lo.length = n := by rw [h1.length_eq, List.length_range]
  refine ⟨lo, e, h1, h3, fun c => ?_, ?_⟩
  · rw [h4, List.mem_map]
    constructor
    · rintro ⟨k, hk, rfl⟩; exact ⟨k, List.mem_range.1 (h1.mem_iff.1 hk), rfl⟩
    · rintro ⟨k, hk, rfl⟩; exact ⟨k, h1.mem_iff.2 (List.mem_range.2 hk), rfl⟩
  · have hnd : (lockSeq none (lo.map a)).Nodup := h3.imp (fun h => Nat.ne_of_lt h)
    rw [exec_append, exec_locks _ _ (by simpa using hnd), Option.bind_some, unlockSeq_eq _ _ (by simp [hlen]),
      List.take_of_length_le (by simp [hlen])]
    exact exec_unlocks _ _ (by simp)

/-- C23 (partial): a `select` that blocks locks its channels, releases each once when it parks, and, woken, locks and releases
them once more — if equal channels stand next to each other in the case list (sends first, then receives).
Missing: other case lists, for which parking unlocks a channel twice (counterexample below). -/
theorem C23_park_partial (a rnd : Nat → Nat) (n : Nat) (hg : Grouped ((List.range n).map a)) :
    ∃ lo, lockOrder a rnd n = .ok lo ∧
      exec [] ((lockSeq none (lo.map a)).map .lock ++ (parkSeq none ((List.range n).map a)).map .unlock) = some [] ∧
      exec [] ((lockSeq none (lo.map a)).map .lock ++ (parkSeq none ((List.range n).map a)).map .unlock ++
        ((lockSeq none (lo.map a)).map .lock ++ (unlockSeq (lo.map a) n).map .unlock)) = some [] := by
  obtain ⟨lo, e, h1, h3, h4, h5⟩ := C23_lock_unlock a rnd n
  have hnd : (lockSeq none (lo.map a)).Nodup := h3.imp (fun h => Nat.ne_of_lt h)
  have key : exec [] ((lockSeq none (lo.map a)).map .lock ++ (parkSeq none ((List.range n).map a)).map .unlock) = some [] := by
    rw [exec_append, exec_locks _ _ (by simpa using hnd), Option.bind_some, parkSeq_none]
    refine exec_unlocks _ _ ?_
    have hm : ∀ c, c ∈ (List.range n).map a ↔ ∃ k, k < n ∧ a k = c := fun c => by simp [List.mem_map]
    have hgr : (lockSeq none ((List.range n).map a)).Nodup ∧ ∀ x, x ∈ lockSeq none ((List.range n).map a) ↔ x ∈ (List.range n).map a := by
      cases hl : (List.range n).map a with
      | nil => simp [lockSeq]
      | cons c cs =>
        rw [lockSeq, if_pos (by simp)]
        exact lockSeq_grouped c cs (hl ▸ hg)
    rw [List.append_nil]
    refine List.Perm.trans ?_ (List.reverse_perm _).symm
    rw [List.perm_ext_iff_of_nodup hgr.1 hnd]
    intro c
    rw [hgr.2, hm, h4]
  exact ⟨lo, e, key, by rw [exec_append, key, Option.bind_some, h5]⟩

/-- Three cases: channels at 10, 10 and 5 (two cases on one channel, side by side). -/
example : Grouped ((List.range 3).map fun k => if k = 2 then 5 else 10) := by
  intro i j k x h1 h2 h3 h4
  have hk : k < 3 := by
    have := (List.getElem?_eq_some_iff.1 h4).1
    simpa using this
  rcases (by omega : i = 0 ∧ j = 1 ∧ k = 2) with ⟨rfl, rfl, rfl⟩
  revert h3 h4
  simp [List.range_succ]
  omega
example : lockOrder (fun k => if k = 2 then 5 else 10) (fun i => i) 3 = .ok [2, 1, 0] := by decide

/-- C23 counterexample: with the cases on channels A, B, A a blocking `select` unlocks A a second time while it no longer
holds it, whatever the addresses and random numbers. -/
theorem C23_double_unlock_counterexample (rnd : Nat → Nat) :
    ∃ (a : Nat → Nat) (n : Nat) (lo : List Nat), lockOrder a rnd n = .ok lo ∧
      parkSeq none ((List.range n).map a) = [10, 20, 10] ∧
      exec [] ((lockSeq none (lo.map a)).map .lock ++ (parkSeq none ((List.range n).map a)).map .unlock) = none := by
  let a : Nat → Nat := fun k => if k = 1 then 20 else 10
  obtain ⟨lo, e, h1, h3, h4, h5⟩ := C23_lock_unlock a rnd 3
  refine ⟨a, 3, lo, e, by decide, ?_⟩
  have hpark : parkSeq none ((List.range 3).map a) = [10, 20, 10] := by decide
  have hnd : (lockSeq none (lo.map a)).Nodup := h3.imp (fun h => Nat.ne_of_lt h)
  have hperm : (lockSeq none (lo.map a)).Perm [10, 20] := by
    rw [List.perm_ext_iff_of_nodup hnd (by decide)]
    intro c
    rw [h4]
    constructor
    · rintro ⟨k, hk, rfl⟩
      rcases (by omega : k = 0 ∨ k = 1 ∨ k = 2) with rfl | rfl | rfl <;> decide
    · intro hc
      simp only [List.mem_cons, List.not_mem_nil, or_false] at hc
      rcases hc with rfl | rfl
      · exact ⟨0, by omega, rfl⟩
      · exact ⟨1, by omega, rfl⟩
  rw [hpark, exec_append, exec_locks _ _ (by simpa using hnd), Option.bind_some, List.append_nil]
  have hp2 := (List.reverse_perm (lockSeq none (lo.map a))).trans hperm
  generalize (lockSeq none (lo.map a)).reverse = held at hp2
  have hn : held.Nodup := hp2.nodup_iff.2 (by decide)
  have h10 : 10 ∈ held := hp2.mem_iff.2 (by decide)
  simp only [List.map_cons, List.map_nil, exec]
  rw [if_pos h10]
  by_cases h20 : 20 ∈ held.erase 10
  · rw [if_pos h20, if_neg]
    intro h
    exact (hn.mem_erase_iff.1 (List.mem_of_mem_erase h)).1 rfl
  · rw [if_neg h20]

end Nature.Chan
