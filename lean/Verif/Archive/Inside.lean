import Verif.Archive.Model

/-!
# Any bytes: nothing outside the file is read, and the walks end
-/

namespace Nature.Archive

theorem slice_ok (bytes : List Nat) (off len : Nat) (h : off + len ≤ bytes.length) :
    slice bytes off len = .ok ((bytes.drop off).take len) := if_pos h

theorem slice_infix (bytes s : List Nat) (off len : Nat) (h : slice bytes off len = .ok s) :
    s <:+: bytes := by
  unfold slice at h
  split at h
  · obtain rfl := Except.ok.inj h
    exact (List.take_prefix _ _).isInfix.trans (List.drop_suffix _ _).isInfix
  · simp at h

/-- Outcomes that must not come. -/
def Bad (e : Err) : Prop := e = .fault ∨ e = .endless ∨ e = .finished

instance (e : Err) : Decidable (Bad e) := by unfold Bad; infer_instance

theorem recordBody_spec (bytes : List Nat) (off : Nat) (thin : Bool) (header : List Nat) (n : Nat)
    (hoff : off + 60 ≤ bytes.length) :
    match recordBody bytes off thin header n with
    | .error e => ¬ Bad e
    | .ok r => r.payloadOffset = off + 60 ∧ off + 60 ≤ r.nextOffset ∧
        r.nextOffset ≤ bytes.length ∧
        ((thin = false ∨ r.kind ≠ .regular) → r.payloadOffset + r.payloadSize ≤ bytes.length) := by
  unfold recordBody
  simp only
  split
  · rename_i e he
    split at he
    · obtain rfl := Except.error.inj he; decide
    · split at he
      · split at he
        · obtain rfl := Except.error.inj he; decide
        · split at he
          · split at he
            · obtain rfl := Except.error.inj he; decide
            · simp at he
          · simp at he
      · simp at he
  · rename_i r he
    split at he
    · simp at he
    · split at he
      · split at he
        · simp at he
        · split at he
          · split at he
            · simp at he
            · obtain rfl := Except.ok.inj he
              simp only
              refine ⟨trivial, by omega, by omega, fun _ => by omega⟩
          · obtain rfl := Except.ok.inj he
            simp only
            refine ⟨trivial, by omega, by omega, fun _ => by omega⟩
      · rename_i hemb
        obtain rfl := Except.ok.inj he
        simp only
        refine ⟨trivial, by omega, hoff, fun h => ?_⟩
        exfalso; apply hemb
        rcases h with h | h
        · simp [h]
        · simp [h]

theorem recordAt_spec (bytes : List Nat) (off : Nat) (thin : Bool) (h : off < bytes.length) :
    match recordAt bytes off thin with
    | .error e => ¬ Bad e
    | .ok r => r.payloadOffset = off + 60 ∧ off + 60 ≤ r.nextOffset ∧
        r.nextOffset ≤ bytes.length ∧
        ((thin = false ∨ r.kind ≠ .regular) → r.payloadOffset + r.payloadSize ≤ bytes.length) := by
  unfold recordAt
  rw [if_neg (by omega)]
  by_cases hr : off ≤ bytes.length ∧ 60 ≤ bytes.length - off
  · rw [if_neg (by simpa using hr), slice_ok _ _ _ (by omega)]
    simp only
    split
    · rename_i e he
      split at he
      · obtain rfl := Except.error.inj he; decide
      · split at he
        · obtain rfl := Except.error.inj he; decide
        · rename_i n _
          have := recordBody_spec bytes off thin ((bytes.drop off).take 60) n (by omega)
          rw [he] at this; exact this
    · rename_i r he
      split at he
      · simp at he
      · split at he
        · simp at he
        · rename_i n _
          have := recordBody_spec bytes off thin ((bytes.drop off).take 60) n (by omega)
          rw [he] at this; exact this
  · rw [if_pos hr]; simp only; decide

theorem copyName_spec (v : List Nat) (e : Err) (h : copyName v = .error e) : ¬ Bad e := by
  unfold copyName at h
  split at h
  · obtain rfl := Except.error.inj h; decide
  · split at h
    · obtain rfl := Except.error.inj h; decide
    · simp at h

theorem copyName_ok (v w : List Nat) (h : copyName v = .ok w) : w ≠ [] ∧ 0 ∉ w := by
  unfold copyName at h
  split at h
  · simp at h
  · split at h
    · simp at h
    · obtain rfl := Except.ok.inj h
      exact ⟨by assumption, by assumption⟩

theorem longName_ok (f t w : List Nat) (h : longName f t = .ok w) : w ≠ [] ∧ 0 ∉ w := by
  unfold longName at h
  split at h
  · simp at h
  · split at h
    · simp at h
    · split at h
      · simp at h
      · split at h
        · simp at h
        · simp only at h
          generalize (match (List.drop _ t).findIdx? (· == 10), (List.drop _ t).findIdx? (· == 0) with
            | some a, some b => some (if a < b then a else b)
            | some a, none => some a
            | none, x => x) = stop at h
          split at h
          · simp at h
          · exact copyName_ok _ _ h

theorem longName_spec (f t : List Nat) (e : Err) (h : longName f t = .error e) : ¬ Bad e := by
  unfold longName at h
  split at h
  · obtain rfl := Except.error.inj h; decide
  · split at h
    · obtain rfl := Except.error.inj h; decide
    · split at h
      · obtain rfl := Except.error.inj h; decide
      · split at h
        · obtain rfl := Except.error.inj h; decide
        · simp only at h
          generalize (match (List.drop _ t).findIdx? (· == 10), (List.drop _ t).findIdx? (· == 0) with
            | some a, some b => some (if a < b then a else b)
            | some a, none => some a
            | none, x => x) = stop at h
          split at h
          · obtain rfl := Except.error.inj h; decide
          · exact copyName_spec _ _ h

theorem memberName_spec (bytes : List Nat) (r : Record) (table : List Nat) (thin : Bool)
    (hr : (thin = false ∨ r.kind ≠ .regular) → r.payloadOffset + r.payloadSize ≤ bytes.length) :
    match memberName bytes r table thin with
    | .error e => ¬ Bad e
    | .ok n => (thin = false → n.objectOffset + n.objectSize ≤ bytes.length) ∧
        ∀ v, n.name = some v → v ≠ [] ∧ 0 ∉ v := by
  unfold memberName
  by_cases hk : r.kind ≠ .regular
  · rw [if_pos hk]
    exact ⟨fun h => hr (Or.inl h), by simp⟩
  · rw [if_neg hk]
    simp only
    by_cases hb : isBsd (rtrim r.nameField) = true
    · rw [if_pos hb]
      by_cases ht : thin = true
      · rw [if_pos ht]; simp only; decide
      · rw [if_neg ht]
        have hr' := hr (Or.inl (by simpa using ht))
        rcases decimal ((rtrim r.nameField).drop 3) with _ | k
        · simp only; decide
        · simp only
          by_cases h1 : k > r.payloadSize
          · rw [if_pos h1]; simp only; decide
          · rw [if_neg h1]
            by_cases h2 : ¬ (r.payloadOffset ≤ bytes.length ∧ k ≤ bytes.length - r.payloadOffset)
            · rw [if_pos h2]; simp only; decide
            · rw [if_neg h2, slice_ok _ _ _ (by omega)]
              simp only
              rcases hc : copyName (rtrimZero ((bytes.drop r.payloadOffset).take k)) with e | v
              · exact copyName_spec _ _ hc
              · simp only
                refine ⟨fun _ => by omega, fun v' hv => ?_⟩
                obtain rfl := Option.some.inj hv
                exact copyName_ok _ _ hc
    · rw [if_neg hb]
      split
      · rename_i e he
        split at he
        · split at he
          · rename_i e' hl
            obtain rfl := Except.error.inj he
            exact longName_spec _ _ _ hl
          · simp at he
        · split at he
          · rename_i e' hl
            obtain rfl := Except.error.inj he
            exact copyName_spec _ _ hl
          · simp at he
      · rename_i n he
        split at he
        · split at he
          · simp at he
          · rename_i v hl
            obtain rfl := Except.ok.inj he
            refine ⟨fun h => hr (Or.inl h), fun v' hv => ?_⟩
            obtain rfl := Option.some.inj hv
            exact longName_ok _ _ _ hl
        · split at he
          · simp at he
          · rename_i v hl
            obtain rfl := Except.ok.inj he
            refine ⟨fun h => hr (Or.inl h), fun v' hv => ?_⟩
            obtain rfl := Option.some.inj hv
            exact copyName_ok _ _ hl

theorem findTable_spec (bytes : List Nat) (thin : Bool) (fuel off : Nat) (t : Option (List Nat))
    (hf : bytes.length - off < fuel) (e : Err) (h : findTable bytes thin fuel off t = .error e) :
    ¬ Bad e := by
  induction fuel generalizing off t with
  | zero => omega
  | succ fuel ih =>
    rw [findTable] at h
    split at h
    · rename_i hlt
      have hs := recordAt_spec bytes off thin hlt
      rcases hr : recordAt bytes off thin with e' | r
      · rw [hr] at h hs
        simp only at h hs
        obtain rfl := Except.error.inj h
        exact hs
      · rw [hr] at h hs
        simp only at h hs
        obtain ⟨h1, h2, h3, h4⟩ := hs
        split at h
        · rename_i hk
          split at h
          · obtain rfl := Except.error.inj h; decide
          · rw [slice_ok _ _ _ (h4 (Or.inr (by rw [hk]; decide)))] at h
            exact ih _ _ (by omega) h
        · exact ih _ _ (by omega) h
    · simp at h

theorem walk_spec (bytes : List Nat) (thin : Bool) (table : List Nat) (fuel off : Nat)
    (hf : bytes.length - off < fuel) :
    match walk bytes thin table fuel off with
    | .error e => ¬ Bad e
    | .ok out => ∀ p ∈ out, p.1 ≠ [] ∧ 0 ∉ p.1 ∧ p.2 <:+: bytes := by
  induction fuel generalizing off with
  | zero => omega
  | succ fuel ih =>
    rw [walk]
    by_cases hlt : off < bytes.length
    · rw [if_pos hlt]
      have hs := recordAt_spec bytes off thin hlt
      rcases hr : recordAt bytes off thin with e' | r
      · rw [hr] at hs; exact hs
      · rw [hr] at hs
        simp only at hs ⊢
        obtain ⟨h1, h2, h3, h4⟩ := hs
        have hm := memberName_spec bytes r table thin h4
        rcases hn : memberName bytes r table thin with e' | n
        · rw [hn] at hm; exact hm
        · rw [hn] at hm
          simp only at hm ⊢
          have hi := ih r.nextOffset (by omega)
          rcases hnm : n.name with _ | name
          · exact hi
          · simp only
            have ho : ∃ object, (if thin then (.ok [] : Except Err (List Nat))
                else slice bytes n.objectOffset n.objectSize) = .ok object ∧ object <:+: bytes := by
              by_cases ht : thin = true
              · exact ⟨[], by rw [if_pos ht], List.nil_infix⟩
              · rw [if_neg ht]
                have := slice_ok _ _ _ (hm.1 (by simpa using ht))
                exact ⟨_, this, slice_infix _ _ _ _ this⟩
            obtain ⟨object, ho, hinf⟩ := ho
            rw [ho]
            simp only
            rcases hw : walk bytes thin table fuel r.nextOffset with e' | rest
            · rw [hw] at hi; exact hi
            · rw [hw] at hi
              simp only at hi ⊢
              intro p hp
              rcases List.mem_cons.mp hp with rfl | hp
              · exact ⟨(hm.2 name hnm).1, (hm.2 name hnm).2, hinf⟩
              · exact hi p hp
    · rw [if_neg hlt]
      intro p hp
      simp at hp

end Nature.Archive
