import Verif.Str.Spec
namespace Nature.Str
open Nature

/-- Three-way comparison of whole lists. -/
inductive Cmp3 (a b : List Byte) : Int → Prop
  | lt (p : List Byte) (x y : Byte) (r s : List Byte) : a = p ++ x :: r → b = p ++ y :: s → x.toNat < y.toNat → Cmp3 a b (-1)
  | gt (p : List Byte) (x y : Byte) (r s : List Byte) : a = p ++ x :: r → b = p ++ y :: s → y.toNat < x.toNat → Cmp3 a b 1
  | left (s : List Byte) : b = a ++ s → Cmp3 a b 0
  | right (s : List Byte) : a = b ++ s → Cmp3 a b 0

theorem memcmp_spec (n : Nat) (a b : List Byte) (h : n = min a.length b.length) : ∃ c, memcmp n a b = .ok c ∧ Cmp3 a b c := by
  induction n generalizing a b with
  | zero =>
    refine ⟨0, by simp [memcmp], ?_⟩
    cases a with
    | nil => exact .left b rfl
    | cons x xs =>
      cases b with
      | nil => exact .right _ rfl
      | cons y ys => simp at h
  | succ n ih =>
    cases a with
    | nil => simp at h
    | cons x xs =>
      cases b with
      | nil => simp at h
      | cons y ys =>
        unfold memcmp
        by_cases h1 : x.toNat < y.toNat
        · rw [if_pos h1]; exact ⟨_, rfl, .lt [] x y xs ys rfl rfl h1⟩
        · rw [if_neg h1]
          by_cases h2 : y.toNat < x.toNat
          · rw [if_pos h2]; exact ⟨_, rfl, .gt [] x y xs ys rfl rfl h2⟩
          · rw [if_neg h2]
            have hxy : x = y := BitVec.eq_of_toNat_eq (by omega)
            subst hxy
            obtain ⟨c, e, hc⟩ := ih xs ys (by simp at h; omega)
            refine ⟨c, e, ?_⟩
            cases hc with
            | lt p u v r s ha hb hl => exact .lt (x :: p) u v r s (by rw [ha]; rfl) (by rw [hb]; rfl) hl
            | gt p u v r s ha hb hl => exact .gt (x :: p) u v r s (by rw [ha]; rfl) (by rw [hb]; rfl) hl
            | left s hb => exact .left s (by rw [hb]; rfl)
            | right s ha => exact .right s (by rw [ha]; rfl)

theorem cmp_spec (a b : List Byte) : ∃ c, cmp a b = .ok c ∧ Cmp3 a b c := by
  unfold cmp
  apply memcmp_spec
  split <;> omega

/-- At most one of the shapes of a comparison holds. -/
theorem diff_unique {p q : List Byte} {x y u v : Byte} {r s r' s' : List Byte}
    (h1 : p ++ x :: r = q ++ u :: r') (h2 : p ++ y :: s = q ++ v :: s') (hne : x ≠ y) (hne' : u ≠ v) : x = u ∧ y = v := by
  induction p generalizing q with
  | nil =>
    cases q with
    | nil => simp only [List.nil_append, List.cons.injEq] at h1 h2; exact ⟨h1.1, h2.1⟩
    | cons z q =>
      simp only [List.nil_append, List.cons_append, List.cons.injEq] at h1 h2
      exact absurd (h1.1.trans h2.1.symm) hne
  | cons z p ih =>
    cases q with
    | nil =>
      simp only [List.nil_append, List.cons_append, List.cons.injEq] at h1 h2
      exact absurd (h1.1.symm.trans h2.1) hne'
    | cons w q =>
      simp only [List.cons_append, List.cons.injEq] at h1 h2
      exact ih h1.2 h2.2

theorem diff_not_prefix {p : List Byte} {x y : Byte} {r s t : List Byte} (hne : x ≠ y) (h : p ++ y :: s = (p ++ x :: r) ++ t) : False := by
  rw [List.append_assoc, List.append_cancel_left_eq] at h
  simp only [List.cons_append, List.cons.injEq] at h
  exact hne h.1.symm

theorem lt_toNat_ne {x y : Byte} (h : x.toNat < y.toNat) : x ≠ y := by
  rintro rfl; omega

theorem before_of_cmp {a b : List Byte} {c : Int} (h : Cmp3 a b c) :
    Before a b ↔ (c < 0 ∨ (c = 0 ∧ a.length < b.length)) := by
  cases h with
  | lt p x y r s ha hb hl => exact ⟨fun _ => Or.inl (by omega), fun _ => Or.inl ⟨p, x, y, r, s, ha, hb, hl⟩⟩
  | gt p x y r s ha hb hl =>
    constructor
    · rintro (⟨q, u, v, r', s', ha', hb', hl'⟩ | ⟨u, t, hb'⟩)
      · have := diff_unique (ha.symm.trans ha') (hb.symm.trans hb') (Ne.symm (lt_toNat_ne hl)) (lt_toNat_ne hl')
        rw [this.1, this.2] at hl; omega
      · rw [ha] at hb'; rw [hb] at hb'
        exact (diff_not_prefix (Ne.symm (lt_toNat_ne hl)) hb').elim
    · rintro (h | h) <;> omega
  | left s hb =>
    constructor
    · rintro (⟨q, u, v, r', s', ha', hb', hl'⟩ | ⟨u, t, hb'⟩)
      · rw [ha', hb'] at hb
        exact (diff_not_prefix (lt_toNat_ne hl') hb).elim
      · right; rw [hb']; simp
    · rintro (h | ⟨_, h⟩)
      · omega
      · cases s with
        | nil => rw [hb] at h; simp at h
        | cons y s => exact Or.inr ⟨y, s, hb⟩
  | right s ha =>
    constructor
    · rintro (⟨q, u, v, r', s', ha', hb', hl'⟩ | ⟨u, t, hb'⟩)
      · rw [hb', ha'] at ha
        exact (diff_not_prefix (Ne.symm (lt_toNat_ne hl')) ha).elim
      · right; rw [hb']; simp
    · rintro (h | ⟨_, h⟩)
      · omega
      · rw [ha] at h; simp at h; omega

theorem cmp3_swap {a b : List Byte} {c : Int} (h : Cmp3 a b c) : Cmp3 b a (-c) := by
  cases h with
  | lt p x y r s ha hb hl => exact .gt p y x s r hb ha hl
  | gt p x y r s ha hb hl => exact .lt p y x s r hb ha hl
  | left s hb => exact .right s hb
  | right s ha => exact .left s ha

theorem eq_of_cmp {a b : List Byte} {c : Int} (h : Cmp3 a b c) : a = b ↔ (c = 0 ∧ a.length = b.length) := by
  cases h with
  | lt p x y r s ha hb hl =>
    refine ⟨fun e => ?_, fun h => by omega⟩
    rw [ha, hb, List.append_cancel_left_eq] at e
    exact absurd (List.cons.inj e).1 (lt_toNat_ne hl)
  | gt p x y r s ha hb hl =>
    refine ⟨fun e => ?_, fun h => by omega⟩
    rw [ha, hb, List.append_cancel_left_eq] at e
    exact absurd (List.cons.inj e).1 (Ne.symm (lt_toNat_ne hl))
  | left s hb =>
    refine ⟨fun e => ⟨rfl, by rw [e]⟩, fun h => ?_⟩
    have := h.2
    rw [hb, List.length_append] at this
    have : s = [] := List.eq_nil_of_length_eq_zero (by omega)
    rw [hb, this, List.append_nil]
  | right s ha =>
    refine ⟨fun e => ⟨rfl, by rw [e]⟩, fun h => ?_⟩
    have := h.2
    rw [ha, List.length_append] at this
    have : s = [] := List.eq_nil_of_length_eq_zero (by omega)
    rw [ha, this, List.append_nil]

theorem before_trans {a b c : List Byte} (h1 : Before a b) (h2 : Before b c) : Before a c := by
  rcases h1 with ⟨p, x, y, r, s, ha, hb, hl⟩ | ⟨y, s, hb⟩
  · rcases h2 with ⟨q, u, v, r', s', hb', hc, hl'⟩ | ⟨v, t, hc⟩
    · rw [hb] at hb'
      rcases List.append_eq_append_iff.1 hb' with ⟨e, he, he'⟩ | ⟨e, he, he'⟩
      · cases e with
        | nil =>
          simp only [List.append_nil, List.nil_append, List.cons.injEq] at he he'
          exact Or.inl ⟨p, x, v, r, s', ha, by rw [hc, he], by rw [← he'.1] at hl'; omega⟩
        | cons z e =>
          simp only [List.cons_append, List.cons.injEq] at he'
          refine Or.inl ⟨p, x, z, r, e ++ v :: s', ha, ?_, by rw [← he'.1]; exact hl⟩
          rw [hc, he]; simp
      · cases e with
        | nil =>
          simp only [List.append_nil, List.nil_append, List.cons.injEq] at he he'
          exact Or.inl ⟨p, x, v, r, s', ha, by rw [hc, he], by rw [he'.1] at hl'; omega⟩
        | cons z e =>
          simp only [List.cons_append, List.cons.injEq] at he'
          refine Or.inl ⟨q, u, v, e ++ x :: r, s', ?_, hc, hl'⟩
          rw [ha, he, he'.1]; simp
    · exact Or.inl ⟨p, x, y, r, s ++ v :: t, ha, by rw [hc, hb]; simp, hl⟩
  · rcases h2 with ⟨q, u, v, r', s', hb', hc, hl'⟩ | ⟨v, t, hc⟩
    · rw [hb] at hb'
      rcases List.append_eq_append_iff.1 hb' with ⟨e, he, he'⟩ | ⟨e, he, he'⟩
      · cases e with
        | nil =>
          simp only [List.append_nil] at he
          exact Or.inr ⟨v, s', by rw [hc, he]⟩
        | cons z e => exact Or.inr ⟨z, e ++ v :: s', by rw [hc, he]; simp⟩
      · cases e with
        | nil =>
          simp only [List.append_nil] at he
          exact Or.inr ⟨v, s', by rw [hc, he]⟩
        | cons z e =>
          simp only [List.cons_append, List.cons.injEq] at he'
          refine Or.inl ⟨q, u, v, e, s', ?_, hc, hl'⟩
          rw [he, he'.1]
    · exact Or.inr ⟨y, s ++ v :: t, by rw [hc, hb]; simp⟩

theorem before_irrefl (a : List Byte) : ¬ Before a a := by
  rintro (⟨p, x, y, r, s, ha, hb, hl⟩ | ⟨y, s, hb⟩)
  · rw [ha, List.append_cancel_left_eq] at hb
    have := (List.cons.inj hb).1
    subst this; omega
  · have := congrArg List.length hb
    simp at this

theorem write_zeros (raw : List Byte) (n : Nat) (h : raw.length ≤ n) :
    write (List.replicate n 0#8) 0 raw = .ok (raw ++ List.replicate (n - raw.length) 0#8) := by
  unfold write
  rw [if_pos (by simpa using h)]
  simp

theorem write_end (a b : List Byte) (n : Nat) (h : b.length ≤ n) :
    write (a ++ List.replicate n 0#8) a.length b = .ok (a ++ b ++ List.replicate (n - b.length) 0#8) := by
  unfold write
  rw [if_pos (by simp; omega), List.take_left']
  · rw [List.drop_append, List.drop_eq_nil_of_le (by omega)]
    simp
  · rfl

theorem new_spec (raw : List Byte) : new raw = .ok ⟨raw ++ [0#8], raw.length⟩ := by
  unfold new
  rw [write_zeros raw _ (by omega), Res.bind_ok, show raw.length + 1 - raw.length = 1 by omega,
    write_end raw [0#8] 1 (by simp), Res.bind_ok]
  simp

theorem concat_spec (a b : List Byte) : concat a b = .ok ⟨a ++ b ++ [0#8], a.length + b.length⟩ := by
  unfold concat
  simp only
  rw [write_zeros a _ (by omega), Res.bind_ok, write_end a b _ (by omega), Res.bind_ok,
    show a.length + b.length + 1 - a.length - b.length = 1 by omega, ← List.length_append,
    write_end (a ++ b) [0#8] 1 (by simp), Res.bind_ok]
  simp

theorem cstr_append {a : List Byte} (h : ∀ x ∈ a, x ≠ 0#8) (b : List Byte) : cstr (a ++ b) = (cstr b).map (a ++ ·) := by
  induction a with
  | nil => rw [List.nil_append]; cases cstr b <;> rfl
  | cons x a ih =>
    rw [List.cons_append, cstr, if_neg (h x List.mem_cons_self), ih fun y hy => h y (List.mem_cons_of_mem _ hy)]
    cases cstr b <;> rfl

theorem cstr_prefix {a k : List Byte} (h : cstr a = some k) : ∃ s, a = k ++ 0#8 :: s := by
  induction a generalizing k with
  | nil => cases h
  | cons x a ih =>
    unfold cstr at h
    by_cases hx : x = 0#8
    · rw [if_pos hx] at h; cases h; exact ⟨a, by rw [hx]; rfl⟩
    · rw [if_neg hx] at h
      cases hc : cstr a with
      | none => rw [hc] at h; cases h
      | some k' =>
        rw [hc] at h; cases h
        obtain ⟨s, hs⟩ := ih hc
        exact ⟨s, by rw [hs]; rfl⟩

/-- Every pool entry is a terminated string filed under its C-string image. -/
def PoolOk (p : Pool) : Prop := ∀ e ∈ p, e.2.data = e.2.bytes ++ [0#8] ∧ e.2.bytes.length = e.2.length ∧ cstr e.2.data = some e.1

theorem poolOk_put {p : Pool} (hp : PoolOk p) {k : List Byte} {h : Hdr} (hh : h.data = h.bytes ++ [0#8] ∧ h.bytes.length = h.length ∧ cstr h.data = some k) :
    PoolOk (poolPut p k h) := by
  intro e he
  rcases List.mem_cons.1 he with rfl | he
  · exact hh
  · exact hp e (List.mem_filter.1 he).1

theorem cstr_some_of_mem {a : List Byte} (h : 0#8 ∈ a) : ∃ k, cstr a = some k := by
  induction a with
  | nil => cases h
  | cons x a ih =>
    unfold cstr
    by_cases hx : x = 0#8
    · rw [if_pos hx]; exact ⟨_, rfl⟩
    · rw [if_neg hx]
      obtain ⟨k, hk⟩ := ih (by
        rcases List.mem_cons.1 h with e | e
        · exact absurd e.symm hx
        · exact e)
      rw [hk]; exact ⟨_, rfl⟩

theorem fresh_spec {p : Pool} (hp : PoolOk p) (raw : List Byte) :
    ∃ h p', newWithPool.fresh p raw = .ok (h, p') ∧ h.bytes = raw ∧ PoolOk p' := by
  unfold newWithPool.fresh
  rw [new_spec, Res.bind_ok]
  have hb : (⟨raw ++ [0#8], raw.length⟩ : Hdr).bytes = raw := by simp [Hdr.bytes]
  split
  · obtain ⟨k, hk⟩ := cstr_some_of_mem (a := raw ++ [0#8]) (by simp)
    simp only [hk]
    exact ⟨_, _, rfl, hb, poolOk_put hp ⟨by rw [hb], by rw [hb], hk⟩⟩
  · exact ⟨_, _, rfl, hb, hp⟩

theorem newWithPool_spec {p : Pool} (hp : PoolOk p) (raw beyond : List Byte) (hn : ∀ x ∈ raw, x ≠ 0#8) (hb : 0#8 ∈ beyond) :
    ∃ h p', newWithPool p raw beyond = .ok (h, p') ∧ h.bytes = raw ∧ PoolOk p' := by
  unfold newWithPool
  obtain ⟨kb, hkb⟩ := cstr_some_of_mem hb
  have hk : cstr (raw ++ beyond) = some (raw ++ kb) := by rw [cstr_append hn, hkb]; rfl
  rw [hk]
  simp only
  cases hg : poolGet p (raw ++ kb) with
  | none => exact fresh_spec hp raw
  | some h =>
    simp only
    split
    · rename_i hl
      refine ⟨h, p, rfl, ?_, hp⟩
      unfold poolGet at hg
      rw [Option.map_eq_some_iff] at hg
      obtain ⟨e, he, rfl⟩ := hg
      have hkey := List.find?_some he
      simp only [decide_eq_true_eq] at hkey
      obtain ⟨h1, h2, h3⟩ := hp e (List.mem_of_find?_eq_some he)
      obtain ⟨s, hs⟩ := cstr_prefix h3
      have hlen : (e.2.data).length = e.2.length + 1 := by rw [h1, List.length_append, h2]; rfl
      have hl2 := congrArg List.length hs
      rw [hlen, hkey] at hl2
      simp only [List.length_append, List.length_cons] at hl2
      have hkb0 : kb = [] := List.eq_nil_of_length_eq_zero (by omega)
      subst hkb0
      have hs0 : s = [] := List.eq_nil_of_length_eq_zero (by omega)
      subst hs0
      rw [hkey, List.append_nil, h1] at hs
      exact List.append_cancel_right hs
    · exact fresh_spec hp raw

end Nature.Str
