import Verif.Table.Lemmas
namespace Nature.Table
variable {V : Type}

/-- What holds of a table between operations. -/
structure Ok (h : Key → UInt32) (t : T V) : Prop where
  inv : Inv h t.entries
  count : t.count = used t.entries
  load : 4 * used t.entries ≤ 3 * t.entries.length

theorem replicate_used (n : Nat) : used (List.replicate n (.empty : Slot V)) = 0 := by
  induction n with
  | zero => rfl
  | succ n ih => rw [List.replicate_succ]; exact ih

theorem replicate_inv (h : Key → UInt32) (n : Nat) : Inv h (List.replicate n (.empty : Slot V)) := by
  constructor
  · intro j k v hj
    rw [List.getElem?_replicate] at hj
    split at hj <;> cases hj
  · intro i j k v w hi
    rw [List.getElem?_replicate] at hi
    split at hi <;> cases hi

theorem new_ok (h : Key → UInt32) : Ok h (new : T V) := ⟨⟨by intro j k v hj; simp [new] at hj, by intro i j k v w hi; simp [new] at hi⟩, rfl, Nat.le_refl _⟩

def noTomb (es : List (Slot V)) : Prop := ∀ j : Nat, es[j]? ≠ some .tomb

theorem reinsert_ok {h : Key → UInt32} : ∀ (l : List (Slot V)) (t : T V), Inv h t.entries → t.count = used t.entries → noTomb t.entries →
    used t.entries + used l < t.entries.length →
    (l.Pairwise fun a b => ∀ k v w, a = .full k v → b ≠ .full k w) → (∀ k v w, .full k v ∈ l → ¬ Has t.entries k w) →
    ∃ t', reinsert h l t = some t' ∧ Inv h t'.entries ∧ t'.count = used t'.entries ∧ t'.entries.length = t.entries.length ∧
      used t'.entries ≤ used t.entries + used l ∧ ∀ k v, Has t'.entries k v ↔ Has t.entries k v ∨ .full k v ∈ l := by
  intro l
  induction l with
  | nil => intro t I hc _ _ _ _; exact ⟨t, rfl, I, hc, rfl, Nat.le_refl _, by simp⟩
  | cons a rest ih =>
    intro t I hc hn hu hp hf
    rw [List.pairwise_cons] at hp
    have skip : (∀ k v, a ≠ .full k v) → reinsert h (a :: rest) t = reinsert h rest t := by
      intro ha
      cases a with
      | full k v => exact absurd rfl (ha k v)
      | _ => rfl
    have hle : used rest ≤ used (a :: rest) := by cases a <;> simp [used]
    by_cases ha : ∃ k v, a = .full k v
    · obtain ⟨k, v, rfl⟩ := ha
      have hu1 : used (Slot.full k v :: rest) = used rest + 1 := rfl
      obtain ⟨r, h1, h2, h3⟩ := lookup I (by omega) k
      have hab : ∀ w, ¬ Has t.entries k w := fun w => hf k v w (List.mem_cons_self ..)
      have he : t.entries[r]? = some .empty := by
        rcases h3 with ⟨w, _, h3⟩ | ⟨h3 | h3, _⟩
        · exact absurd h3 (hab w)
        · exact h3
        · exact absurd h3 (hn r)
      obtain ⟨I', hH⟩ := put_inv I (by omega) k v h1
      have hus : used (t.entries.set r (.full k v)) = used t.entries + 1 := by rw [used_set (by simp) h2, he]; rfl
      obtain ⟨t', g1, g2, g3, g4, g5, g6⟩ := ih ⟨t.count + 1, t.entries.set r (.full k v)⟩ I' (by rw [hus, hc]) (by
          intro j
          dsimp only
          rw [get_set h2]
          split
          · simp
          · exact hn j) (by dsimp only; rw [List.length_set]; omega) hp.2 (by
          intro k' v' w hm hh
          rw [hH] at hh
          split at hh
          · rename_i hk; subst hk
            exact hp.1 _ hm k' v v' rfl rfl
          · exact hf k' v' w (List.mem_cons_of_mem _ hm) hh)
      refine ⟨t', ?_, g2, g3, by rw [g4, List.length_set], by dsimp only at g5; omega, ?_⟩
      · simp only [reinsert, h1, Option.bind_eq_bind, Option.bind_some]
        exact g1
      · intro k' w
        rw [g6, hH]
        constructor
        · rintro (hh | hh)
          · split at hh
            · rename_i hk; subst hk; subst hh; exact .inr (List.mem_cons_self ..)
            · exact .inl hh
          · exact .inr (List.mem_cons_of_mem _ hh)
        · rintro (hh | hh)
          · left
            split
            · rename_i hk; subst hk; exact absurd hh (hab w)
            · exact hh
          · rcases List.mem_cons.1 hh with hh | hh
            · left
              injection hh with e1 e2
              rw [if_pos e1]; exact e2
            · exact .inr hh
    · have ha' : ∀ k v, a ≠ .full k v := fun k v e => ha ⟨k, v, e⟩
      rw [skip ha']
      obtain ⟨t', g1, g2, g3, g4, g5, g6⟩ := ih t I hc hn (by omega) hp.2 (fun k v w hm => hf k v w (List.mem_cons_of_mem _ hm))
      refine ⟨t', g1, g2, g3, g4, by omega, ?_⟩
      intro k v
      rw [g6, List.mem_cons]
      constructor
      · rintro (hh | hh)
        · exact .inl hh
        · exact .inr (.inr hh)
      · rintro (hh | hh | hh)
        · exact .inl hh
        · exact absurd hh.symm (ha' k v)
        · exact .inr hh

theorem has_mem {es : List (Slot V)} {k : Key} {v : V} : Has es k v ↔ .full k v ∈ es := by
  unfold Has; exact List.mem_iff_getElem?.symm

theorem adjust_ok {h : Key → UInt32} {t : T V} (O : Ok h t) {c : Nat} (hc : used t.entries < c) :
    ∃ t', adjust h t c = some t' ∧ Inv h t'.entries ∧ t'.count = used t'.entries ∧ t'.entries.length = c ∧ used t'.entries ≤ used t.entries ∧
      ∀ k v, Has t'.entries k v ↔ Has t.entries k v := by
  have hno : ∀ k v, ¬ Has (List.replicate c (.empty : Slot V)) k v := by
    intro k v hh
    rw [has_mem, List.mem_replicate] at hh
    cases hh.2
  obtain ⟨t', g1, g2, g3, g4, g5, g6⟩ := reinsert_ok t.entries ⟨0, List.replicate c .empty⟩ (replicate_inv h c) (replicate_used c).symm
    (by intro j hj; dsimp only at hj; rw [List.getElem?_replicate] at hj; split at hj <;> cases hj)
    (by dsimp only; rw [replicate_used, List.length_replicate]; omega)
    (by
      rw [List.pairwise_iff_getElem]
      intro i j hi hj hij k v w e1 e2
      have a1 : t.entries[i]? = some (.full k v) := by rw [List.getElem?_eq_getElem hi, e1]
      have a2 : t.entries[j]? = some (.full k w) := by rw [List.getElem?_eq_getElem hj, e2]
      have := O.inv.once i j k v w a1 a2
      omega)
    (fun k v w _ => hno k w)
  refine ⟨t', g1, g2, g3, by simpa using g4, by dsimp only at g5; rw [replicate_used] at g5; omega, ?_⟩
  intro k v
  rw [g6, has_mem (es := t.entries)]
  constructor
  · rintro (hh | hh)
    · exact absurd hh (hno k v)
    · exact hh
  · exact .inr

theorem set_ok {h : Key → UInt32} {t : T V} (O : Ok h t) (key : Key) (v : V) :
    ∃ t', set h t key v = some t' ∧ Ok h t' ∧ ∀ k w, Has t'.entries k w ↔ if k = key then w = v else Has t.entries k w := by
  have hbig : ∃ t1, room h t = some t1 ∧
      Inv h t1.entries ∧ t1.count = used t1.entries ∧ 4 * (used t1.entries + 1) ≤ 3 * t1.entries.length ∧
      ∀ k w, Has t1.entries k w ↔ Has t.entries k w := by
    unfold room
    by_cases hg : 3 * t.entries.length < 4 * (t.count + 1)
    · rw [if_pos hg]
      have hl := O.load
      have hgr : used t.entries < grow t.entries.length ∧ 4 * (used t.entries + 1) ≤ 3 * grow t.entries.length := by
        unfold grow; split <;> omega
      obtain ⟨t', g1, g2, g3, g4, g5, g6⟩ := adjust_ok O hgr.1
      exact ⟨t', g1, g2, g3, by rw [g4]; omega, g6⟩
    · rw [if_neg hg]
      have := O.count
      exact ⟨t, rfl, O.inv, O.count, by omega, fun _ _ => Iff.rfl⟩
  obtain ⟨t1, e1, I, hc, hl, hH⟩ := hbig
  obtain ⟨r, f1, f2, f3⟩ := lookup I (by omega) key
  obtain ⟨I', hH'⟩ := put_inv I (by omega) key v f1
  have hus := used_set (s := .full key v) (by simp) f2
  refine ⟨⟨counted t1.entries[r]? t1.count, t1.entries.set r (.full key v)⟩, ?_, ⟨I', ?_, ?_⟩, ?_⟩
  · simp only [set, e1, f1, Option.bind_eq_bind, Option.bind_some]
  · dsimp only
    rw [hus, hc]
  · dsimp only
    rw [hus, List.length_set]
    unfold counted
    split <;> omega
  · intro k w
    rw [hH']
    split
    · exact Iff.rfl
    · exact hH k w

theorem delete_ok {h : Key → UInt32} {t : T V} (O : Ok h t) (key : Key) :
    ∃ t', delete h t key = some t' ∧ Ok h t' ∧ ∀ k w, Has t'.entries k w ↔ k ≠ key ∧ Has t.entries k w := by
  have hu : t.count ≠ 0 → used t.entries < t.entries.length := by
    intro h0; have := O.count; have := O.load; omega
  have hab : (∀ v, ¬ Has t.entries key v) → ∀ k w, Has t.entries k w ↔ k ≠ key ∧ Has t.entries k w := by
    intro ha k w
    refine ⟨fun hh => ⟨?_, hh⟩, fun hh => hh.2⟩
    rintro rfl; exact ha w hh
  unfold delete
  by_cases h0 : t.count = 0
  · rw [if_pos h0]
    refine ⟨t, rfl, O, hab ?_⟩
    intro v hh
    rw [has_mem] at hh
    have h1 : used t.entries = 0 := by have := O.count; omega
    have : ∀ es : List (Slot V), used es = 0 → .full key v ∉ es := by
      intro es
      induction es with
      | nil => simp
      | cons a rest ih =>
        intro h1
        cases a with
        | empty => simpa using ih h1
        | tomb => simp [used] at h1
        | full k v => simp [used] at h1
    exact this _ h1 hh
  · rw [if_neg h0]
    obtain ⟨r, f1, f2, f3⟩ := lookup O.inv (hu h0) key
    simp only [f1, Option.bind_eq_bind, Option.bind_some]
    rcases f3 with ⟨v, f3, _⟩ | ⟨f3, f4⟩
    · rw [f3]
      obtain ⟨I', hH⟩ := del_inv O.inv f3
      have hus : used (t.entries.set r .tomb) = used t.entries := by rw [used_set (by simp) f2, f3]; rfl
      exact ⟨_, rfl, ⟨I', by rw [hus]; exact O.count, by rw [hus, List.length_set]; exact O.load⟩, hH⟩
    · refine ⟨t, ?_, O, hab f4⟩
      rcases f3 with f3 | f3 <;> rw [f3]

theorem get_ok {h : Key → UInt32} {t : T V} (O : Ok h t) (key : Key) :
    ∃ o, get h t key = some o ∧ ∀ v, o = some v ↔ Has t.entries key v := by
  unfold get
  by_cases h0 : t.count = 0
  · rw [if_pos h0]
    refine ⟨none, rfl, fun v => ⟨(fun h => by cases h), fun hh => ?_⟩⟩
    obtain ⟨t', g1, _, g3⟩ := delete_ok O key
    unfold delete at g1
    rw [if_pos h0] at g1
    cases g1
    exact absurd rfl ((g3 key v).1 hh).1
  · rw [if_neg h0]
    have hu : used t.entries < t.entries.length := by have := O.count; have := O.load; omega
    obtain ⟨r, f1, f2, f3⟩ := lookup O.inv hu key
    simp only [f1, Option.bind_eq_bind, Option.bind_some]
    rcases f3 with ⟨v, f3, f4⟩ | ⟨f3, f4⟩
    · rw [f3]
      refine ⟨_, rfl, fun w => ⟨fun e => by cases e; exact f4, fun hh => by rw [has_fun O.inv f4 hh]⟩⟩
    · refine ⟨none, ?_, fun w => ⟨(fun e => by cases e), fun hh => absurd hh (f4 w)⟩⟩
      rcases f3 with f3 | f3 <;> rw [f3]

/-! ### The property -/

/-- An operation that changes a table. -/
inductive Op (V : Type) where
  | set (k : Key) (v : V)
  | delete (k : Key)

/-- What was last stored under a name, and not deleted since. -/
def stored (k : Key) : List (Op V) → Option V
  | [] => none
  | op :: earlier =>
    match op with
    | .set k' v => if k = k' then some v else stored k earlier
    | .delete k' => if k = k' then none else stored k earlier

/-- A new table after the operations, the last one first in the list.  `none`: an operation does not return. -/
def run (h : Key → UInt32) : List (Op V) → Option (T V)
  | [] => some new
  | op :: earlier => do
    let t ← run h earlier
    match op with
    | .set k v => set h t k v
    | .delete k => delete h t k

theorem run_ok (h : Key → UInt32) : ∀ ops : List (Op V), ∃ t, run h ops = some t ∧ Ok h t ∧ ∀ k v, Has t.entries k v ↔ stored k ops = some v := by
  intro ops
  induction ops with
  | nil => exact ⟨new, rfl, new_ok h, fun k v => ⟨fun ⟨j, hj⟩ => by simp [new] at hj, fun e => by cases e⟩⟩
  | cons op earlier ih =>
    obtain ⟨t, e, O, hH⟩ := ih
    cases op with
    | set k v =>
      obtain ⟨t', g1, g2, g3⟩ := set_ok O k v
      refine ⟨t', by simp only [run, e, Option.bind_eq_bind, Option.bind_some]; exact g1, g2, fun k' w => ?_⟩
      rw [g3, stored]
      split
      · simp [eq_comm]
      · exact hH k' w
    | delete k =>
      obtain ⟨t', g1, g2, g3⟩ := delete_ok O k
      refine ⟨t', by simp only [run, e, Option.bind_eq_bind, Option.bind_some]; exact g1, g2, fun k' w => ?_⟩
      rw [g3, stored]
      by_cases hk : k' = k
      · simp [hk]
      · simp [hk, hH]

/-- **C83**.  For every sequence of `set` and `delete` on a new table, every `get` returns, and gives what was last stored under
the name.  This holds for every hash function: the names need not be spread well. -/
theorem C83_table (h : Key → UInt32) (ops : List (Op V)) : ∃ t, run h ops = some t ∧ ∀ k, get h t k = some (stored k ops) := by
  obtain ⟨t, e, O, hH⟩ := run_ok h ops
  refine ⟨t, e, fun k => ?_⟩
  obtain ⟨o, g1, g2⟩ := get_ok O k
  rw [g1]
  cases hs : stored k ops with
  | some v => rw [(g2 v).2 ((hH k v).2 hs)]
  | none =>
    cases o with
    | none => rfl
    | some v =>
      have := (hH k v).1 ((g2 v).1 rfl)
      rw [hs] at this; cases this

/-- Names that all collide, a deletion, a name entered again, and a table that has grown. -/
def sampleOps : List (Op Nat) :=
  [.set [98] 20, .delete [98], .set [105] 9, .set [104] 8, .set [103] 7, .set [102] 6, .set [101] 5, .delete [97], .set [99] 3, .set [98] 2, .set [97] 1]

example : ((run (fun _ => 7) sampleOps).map fun t => (t.entries.length, t.count)) = some (16, 7) ∧
    ((run (fun _ => 7) sampleOps).bind fun t => get (fun _ => 7) t [98]) = some (some 20) ∧
    ((run (fun _ => 7) sampleOps).bind fun t => get (fun _ => 7) t [97]) = some none ∧
    ((run hashString sampleOps).bind fun t => get hashString t [101]) = some (some 5) := by
  refine ⟨by decide +kernel, by decide +kernel, by decide +kernel, by decide +kernel⟩

end Nature.Table
