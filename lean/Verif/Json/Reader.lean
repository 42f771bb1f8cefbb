import Verif.Json.RoundTrip
namespace Nature.Json

theorem write_append (r : Reader) (a b : List Byte) : r.write (a ++ b) = (r.write a).bind fun q => q.write b := by
  simp only [Reader.write, List.foldlM_append]
  rfl

theorem write_nil (r : Reader) : r.write [] = some r := rfl

theorem write_cons (r : Reader) (c : Byte) (t : List Byte) : r.write (c :: t) = (r.step c).bind fun q => q.write t := by
  simp only [Reader.write, List.foldlM_cons]
  rfl

theorem write_one (r : Reader) (c : Byte) : r.write [c] = r.step c := by
  rw [write_cons]
  cases r.step c <;> rfl

theorem step_data {r q : Reader} {c : Byte} (h : r.step c = some q) : q.data = r.data ++ [c] := by
  rw [Reader.step] at h
  dsimp only at h
  repeat' split at h
  all_goals first
    | cases h; rfl
    | cases h

theorem write_data : ∀ (l : List Byte) (r q : Reader), r.write l = some q → q.data = r.data ++ l := by
  intro l
  induction l with
  | nil => intro r q h; rw [write_nil] at h; cases h; simp
  | cons c l ih =>
    intro r q h
    rw [write_cons] at h
    obtain ⟨r2, h1, h2⟩ := Option.bind_eq_some_iff.1 h
    rw [ih _ _ h2, step_data h1]
    simp

/-- Reading `l` leads from one state to another, and the value is not complete before the end of `l`. -/
def Quiet (r : Reader) (l : List Byte) (r' : Reader) : Prop :=
  r.write l = some r' ∧ ∀ p x, l = p ++ x → x ≠ [] → ∃ q, r.write p = some q ∧ q.complete = false

theorem quiet_nil (r : Reader) : Quiet r [] r :=
  ⟨rfl, fun p x h hx => absurd (List.append_eq_nil_iff.1 h.symm).2 hx⟩

theorem quiet_one {r r' : Reader} {c : Byte} (hc : r.complete = false) (h : r.step c = some r') : Quiet r [c] r' := by
  refine ⟨by rw [write_one, h], fun p x hp hx => ?_⟩
  cases p with
  | nil => exact ⟨r, rfl, hc⟩
  | cons d p =>
    injection hp with _ hp
    exact absurd (List.append_eq_nil_iff.1 hp.symm).2 hx

theorem quiet_append {r r' r'' : Reader} {l m : List Byte} (h1 : Quiet r l r') (h2 : Quiet r' m r'') : Quiet r (l ++ m) r'' := by
  refine ⟨by rw [write_append, h1.1]; exact h2.1, fun p x hp hx => ?_⟩
  rcases List.append_eq_append_iff.1 hp with ⟨a, rfl, rfl⟩ | ⟨a, rfl, rfl⟩
  · obtain ⟨q, hq, hc⟩ := h2.2 a x rfl hx
    exact ⟨q, by rw [write_append, h1.1]; exact hq, hc⟩
  · by_cases ha : a = []
    · subst ha
      have e := h1.1
      rw [List.append_nil] at e
      obtain ⟨q, hq, hc⟩ := h2.2 [] m rfl hx
      rw [write_nil] at hq
      injection hq with hq
      subst hq
      exact ⟨_, e, hc⟩
    · exact h1.2 p a rfl ha

theorem quiet_cons {r r' r'' : Reader} {c : Byte} {m : List Byte} (hc : r.complete = false) (h : r.step c = some r') (h2 : Quiet r' m r'') :
    Quiet r (c :: m) r'' := quiet_append (quiet_one hc h) h2

/-- A state after the first byte of the value, not yet complete. -/
def st (data cs : List Byte) (sc ins esc : Bool) : Reader := ⟨data, cs, true, ins, esc, sc, false⟩

theorem quiet_same {cs : List Byte} {sc ins esc : Bool} {l : List Byte}
    (h : ∀ c ∈ l, ∀ data, (st data cs sc ins esc).step c = some (st (data ++ [c]) cs sc ins esc)) (data : List Byte) :
    Quiet (st data cs sc ins esc) l (st (data ++ l) cs sc ins esc) := by
  induction l generalizing data with
  | nil => rw [List.append_nil]; exact quiet_nil _
  | cons c l ih =>
    have := ih (fun d hd => h d (List.mem_cons_of_mem _ hd)) (data ++ [c])
    rw [List.append_assoc] at this
    exact quiet_cons rfl (h c List.mem_cons_self data) this

/-! ### Strings -/

theorem step_plain {data cs : List Byte} {sc : Bool} {c : Byte} (h1 : c ≠ 34) (h2 : c ≠ 92) (h3 : 0x20 ≤ c.toNat) :
    (st data cs sc true false).step c = some (st (data ++ [c]) cs sc true false) := by
  have h4 : ¬ c < 0x20 := fun hh => by have : c.toNat < 0x20 := UInt8.lt_iff_toNat_lt.1 hh; omega
  simp [Reader.step, st, h1, h2, h4]

theorem step_back {data cs : List Byte} {sc : Bool} : (st data cs sc true false).step 92 = some (st (data ++ [92]) cs sc true true) := by
  simp [Reader.step, st]

theorem step_escaped {data cs : List Byte} {sc : Bool} {c : Byte} :
    (st data cs sc true true).step c = some (st (data ++ [c]) cs sc true false) := by
  simp [Reader.step, st]

theorem quiet_plain {cs : List Byte} {sc : Bool} {l : List Byte} (h : ∀ c ∈ l, c ≠ 34 ∧ c ≠ 92 ∧ 0x20 ≤ c.toNat) (data : List Byte) :
    Quiet (st data cs sc true false) l (st (data ++ l) cs sc true false) :=
  quiet_same (fun c hc _ => step_plain (h c hc).1 (h c hc).2.1 (h c hc).2.2) data

theorem quiet_esc {cs : List Byte} {sc : Bool} {l : List Byte} (e : Byte) (data : List Byte)
    (h : ∀ data, Quiet (st data cs sc true false) l (st (data ++ l) cs sc true false)) :
    Quiet (st data cs sc true false) (92 :: e :: l) (st (data ++ 92 :: e :: l) cs sc true false) := by
  have := h (data ++ [92] ++ [e])
  rw [show data ++ [92] ++ [e] ++ l = data ++ 92 :: e :: l by simp] at this
  exact quiet_cons rfl step_back (quiet_cons rfl step_escaped this)

theorem quiet_hex {cs : List Byte} {sc : Bool} {h l : List Byte} {n : Nat} (hh : Hex4 h n) (data : List Byte)
    (hl : ∀ data, Quiet (st data cs sc true false) l (st (data ++ l) cs sc true false)) :
    Quiet (st data cs sc true false) (92 :: 117 :: (h ++ l)) (st (data ++ 92 :: 117 :: (h ++ l)) cs sc true false) := by
  refine quiet_esc 117 data fun data => ?_
  have h1 := quiet_plain (cs := cs) (sc := sc) (fun c hc => ⟨(hex4_mem hh c hc).1, (hex4_mem hh c hc).2.1, Nat.le_trans (by decide) (hex4_mem hh c hc).2.2⟩) data
  have := hl (data ++ h)
  rw [List.append_assoc] at this
  exact quiet_append h1 this

theorem quiet_chars {l o : List Byte} (h : Chars l o) {cs : List Byte} {sc : Bool} : ∀ data,
    Quiet (st data cs sc true false) l (st (data ++ l) cs sc true false) := by
  have high : ∀ c : Byte, 0x80 ≤ c.toNat → c ≠ 34 ∧ c ≠ 92 ∧ 0x20 ≤ c.toNat := by
    intro c hc
    refine ⟨?_, ?_, by omega⟩
    · rintro rfl; exact absurd hc (by decide)
    · rintro rfl; exact absurd hc (by decide)
  induction h with
  | nil => intro data; rw [List.append_nil]; exact quiet_nil _
  | @plain l o c h1 _ h3 h4 _ ih =>
    intro data
    have := ih (data ++ [c])
    rw [List.append_assoc] at this
    exact quiet_cons rfl (step_plain h3 h4 (UInt8.le_iff_toNat_le.1 h1)) this
  | escape e c _ _ ih => intro data; exact quiet_esc e data ih
  | unicode h n hh _ _ ih => intro data; exact quiet_hex hh data ih
  | pair h1 h2 hi lo hh1 _ _ hh2 _ _ _ ih => intro data; exact quiet_hex hh1 data fun data => quiet_hex hh2 data ih
  | @rune l o cp hs h80 _ ih =>
    intro data
    have h1 : ∀ c ∈ utf8 cp, c ≠ 34 ∧ c ≠ 92 ∧ 0x20 ≤ c.toNat := by
      obtain ⟨c, t, e, e1, e2⟩ := utf8_high hs h80
      rw [e]
      intro x hx
      rcases List.mem_cons.1 hx with rfl | hx
      · exact high _ e1
      · exact high _ (e2 x hx)
    have := ih (data ++ utf8 cp)
    rw [List.append_assoc] at this
    exact quiet_append (quiet_plain h1 data) this
  | lone h n hh _ _ _ _ ih => intro data; exact quiet_hex hh data ih
  | @bad l o c hc _ _ ih =>
    intro data
    obtain ⟨a1, a2, a3⟩ := high c (UInt8.le_iff_toNat_le.1 hc)
    have := ih (data ++ [c])
    rw [List.append_assoc] at this
    exact quiet_cons rfl (step_plain a1 a2 a3) this

/-! ### Inside a container -/

theorem step_other {data cs : List Byte} {c : Byte} (h : c ≠ 34 ∧ c ≠ 123 ∧ c ≠ 91 ∧ c ≠ 125 ∧ c ≠ 93) :
    (st data cs false false false).step c = some (st (data ++ [c]) cs false false false) := by
  obtain ⟨h1, h2, h3, h4, h5⟩ := h
  simp [Reader.step, st, h1, h2, h3, h4, h5]

theorem step_quote {data cs : List Byte} : (st data cs false false false).step 34 = some (st (data ++ [34]) cs false true false) := by
  simp [Reader.step, st]

theorem step_unquote {data cs : List Byte} : (st data cs false true false).step 34 = some (st (data ++ [34]) cs false false false) := by
  simp [Reader.step, st]

theorem step_open {data cs : List Byte} {c : Byte} (hc : c = 123 ∨ c = 91) (hl : cs.length < 256) :
    (st data cs false false false).step c = some (st (data ++ [c]) (c :: cs) false false false) := by
  have h1 : c ≠ 34 := by rcases hc with rfl | rfl <;> decide
  have h2 : ¬ (c :: cs).length > maxDepth := by simp [maxDepth]; omega
  have h3 : ¬ (maxDepth < cs.length + 1) := by simp [maxDepth]; omega
  simp [Reader.step, st, h1, hc, h3]

theorem step_close {data cs : List Byte} {o c : Byte} (hc : (o = 123 ∧ c = 125) ∨ (o = 91 ∧ c = 93)) (hcs : cs ≠ []) :
    (st data (o :: cs) false false false).step c = some (st (data ++ [c]) cs false false false) := by
  rcases hc with ⟨rfl, rfl⟩ | ⟨rfl, rfl⟩ <;> simp [Reader.step, st, hcs]

theorem step_last {data : List Byte} {o c : Byte} (hc : (o = 123 ∧ c = 125) ∨ (o = 91 ∧ c = 93)) :
    (st data [o] false false false).step c = some { st (data ++ [c]) [] false false false with complete := true } := by
  rcases hc with ⟨rfl, rfl⟩ | ⟨rfl, rfl⟩ <;> simp [Reader.step, st]

theorem ws_other {c : Byte} (h : c = 32 ∨ c = 9 ∨ c = 10 ∨ c = 13) : c ≠ 34 ∧ c ≠ 123 ∧ c ≠ 91 ∧ c ≠ 125 ∧ c ≠ 93 := by
  rcases h with rfl | rfl | rfl | rfl <;> decide

/-- Reading `t` inside containers changes nothing. -/
def Through (cs t : List Byte) : Prop := ∀ data, Quiet (st data cs false false false) t (st (data ++ t) cs false false false)

theorem through_append {cs a b : List Byte} (ha : Through cs a) (hb : Through cs b) : Through cs (a ++ b) := by
  intro data
  have := hb (data ++ a)
  rw [List.append_assoc] at this
  exact quiet_append (ha data) this

theorem through_other {cs t : List Byte} (h : ∀ c ∈ t, c ≠ 34 ∧ c ≠ 123 ∧ c ≠ 91 ∧ c ≠ 125 ∧ c ≠ 93) : Through cs t :=
  fun data => quiet_same (fun c hc _ => step_other (h c hc)) data

theorem through_ws {cs a : List Byte} (h : Ws a) : Through cs a := through_other fun c hc => ws_other (h c hc)

theorem through_cons {cs : List Byte} {c : Byte} {b : List Byte} (h : c ≠ 34 ∧ c ≠ 123 ∧ c ≠ 91 ∧ c ≠ 125 ∧ c ≠ 93) (hb : Through cs b) :
    Through cs (c :: b) :=
  through_append (a := [c]) (through_other fun d hd => by rw [List.mem_singleton.1 hd]; exact h) hb

theorem through_string {cs l o : List Byte} (h : Chars l o) : Through cs (34 :: (l ++ [34])) := by
  intro data
  have h1 := quiet_chars h (cs := cs) (sc := false) (data ++ [34])
  have h2 := quiet_one (r := st (data ++ [34] ++ l) cs false true false) rfl step_unquote
  have := quiet_cons (r := st data cs false false false) rfl step_quote (quiet_append h1 h2)
  simpa using this

theorem num_mem {l : List Byte} (h : Num l) : ∀ c ∈ l, c = 43 ∨ c = 45 ∨ c = 46 ∨ c = 69 ∨ c = 101 ∨ (48 ≤ c ∧ c ≤ 57) := by
  obtain ⟨sign, int, frac, exp, rfl, h1, h2, h3, h4⟩ := h
  intro c hc
  simp only [List.mem_append] at hc
  rcases hc with ((hc | hc) | hc) | hc
  · rcases h1 with rfl | rfl
    · cases hc
    · rw [List.mem_singleton.1 hc]; decide
  · rcases h2 with rfl | ⟨d, t, rfl, d1, d2, ht⟩
    · rw [List.mem_singleton.1 hc]; decide
    · rcases List.mem_cons.1 hc with rfl | hc
      · exact Or.inr (Or.inr (Or.inr (Or.inr (Or.inr ⟨UInt8.le_trans (by decide) d1, d2⟩))))
      · exact Or.inr (Or.inr (Or.inr (Or.inr (Or.inr (ht c hc)))))
  · rcases h3 with rfl | ⟨ds, rfl, _, hd⟩
    · cases hc
    · rcases List.mem_cons.1 hc with rfl | hc
      · decide
      · exact Or.inr (Or.inr (Or.inr (Or.inr (Or.inr (hd c hc)))))
  · rcases h4 with rfl | ⟨e, sg, ds, rfl, he, hsg, _, hd⟩
    · cases hc
    · rcases List.mem_cons.1 hc with rfl | hc
      · rcases he with rfl | rfl <;> decide
      · rcases List.mem_append.1 hc with hc | hc
        · rcases hsg with rfl | rfl | rfl
          · cases hc
          · rw [List.mem_singleton.1 hc]; decide
          · rw [List.mem_singleton.1 hc]; decide
        · exact Or.inr (Or.inr (Or.inr (Or.inr (Or.inr (hd c hc)))))

theorem digit_other {c : Byte} (h : c = 43 ∨ c = 45 ∨ c = 46 ∨ c = 69 ∨ c = 101 ∨ (48 ≤ c ∧ c ≤ 57)) :
    (c ≠ 34 ∧ c ≠ 123 ∧ c ≠ 91 ∧ c ≠ 125 ∧ c ≠ 93) ∧ isSpace c = false := by
  rcases h with rfl | rfl | rfl | rfl | rfl | h
  · decide
  · decide
  · decide
  · decide
  · decide
  · refine ⟨⟨?_, ?_, ?_, ?_, ?_⟩, digit_notSpace (Or.inr h)⟩
    · rintro rfl; exact absurd h.1 (by decide)
    · rintro rfl; exact absurd h.2 (by decide)
    · rintro rfl; exact absurd h.2 (by decide)
    · rintro rfl; exact absurd h.2 (by decide)
    · rintro rfl; exact absurd h.2 (by decide)

/-- Literal names and numbers. -/
theorem scalar_mem {t : List Byte} {v : V} (h : Leaf t v) : (∃ l s, Chars l s ∧ t = 34 :: (l ++ [34])) ∨
    ∀ c ∈ t, (c ≠ 34 ∧ c ≠ 123 ∧ c ≠ 91 ∧ c ≠ 125 ∧ c ≠ 93) ∧ isSpace c = false := by
  cases h with
  | null => exact Or.inr (by decide)
  | true => exact Or.inr (by decide)
  | false => exact Or.inr (by decide)
  | num h => exact Or.inr fun c hc => digit_other (num_mem h c hc)
  | str h => exact Or.inl ⟨_, _, h, rfl⟩

theorem through_leaf {cs t : List Byte} {v : V} (h : Leaf t v) : Through cs t := by
  rcases scalar_mem h with ⟨l, s, hc, rfl⟩ | h
  · exact through_string hc
  · exact through_other fun c hc => (h c hc).1

theorem through_elems {cs : List Byte} {P : List Byte → V → Prop} (hP : ∀ t v, P t v → Through cs t) {l : List Byte} {vs : List V}
    (h : Elems P l vs) : Through cs l := by
  induction h with
  | one ha ht hb => exact through_append (through_append (through_ws ha) (hP _ _ ht)) (through_ws hb)
  | cons ha ht hb _ ih =>
    exact through_append (through_append (through_append (through_ws ha) (hP _ _ ht)) (through_ws hb)) (through_cons (by decide) ih)

theorem through_member {cs : List Byte} {P : List Byte → V → Prop} (hP : ∀ t v, P t v → Through cs t) {l k : List Byte} {v : V}
    (h : Member P l k v) : Through cs l := by
  obtain ⟨a, kt, b, c, t, d, ha, hk, hb, hc, ht, hd, rfl⟩ := h
  have h1 : Through cs (58 :: (c ++ t ++ d)) := through_cons (by decide)
    (through_append (through_append (through_ws hc) (hP _ _ ht)) (through_ws hd))
  have := through_append (through_ws ha) (through_append (through_string hk) (through_append (through_ws hb) h1))
  simpa using this

theorem through_members {cs : List Byte} {P : List Byte → V → Prop} (hP : ∀ t v, P t v → Through cs t) {l : List Byte}
    {m : List (List Byte × V)} (h : Members P l m) : Through cs l := by
  induction h with
  | one hm => exact through_member hP hm
  | cons hm _ ih => exact through_append (through_member hP hm) (through_cons (by decide) ih)

theorem through_nest {cs l : List Byte} {o c : Byte} (hoc : (o = 123 ∧ c = 125) ∨ (o = 91 ∧ c = 93)) (hcs : cs ≠ [])
    (hlen : cs.length < 256) (h : Through (o :: cs) l) : Through cs (o :: (l ++ [c])) := by
  intro data
  have h0 : o = 123 ∨ o = 91 := by rcases hoc with ⟨h, _⟩ | ⟨h, _⟩; exact Or.inl h; exact Or.inr h
  have h1 := h (data ++ [o])
  have h2 := quiet_one (r := st (data ++ [o] ++ l) (o :: cs) false false false) rfl (step_close hoc hcs)
  have := quiet_cons (r := st data cs false false false) rfl (step_open h0 hlen) (quiet_append h1 h2)
  simpa using this

theorem through_val : ∀ d t v, Val d t v → ∀ cs, cs ≠ [] → cs.length + d ≤ 256 → Through cs t := by
  intro d
  induction d with
  | zero => intro t v h cs _ _; exact through_leaf h
  | succ d ih =>
    intro t v h cs hcs hlen
    have hP : ∀ o t v, Val d t v → Through (o :: cs) t := fun o t v h => ih t v h (o :: cs) (by simp) (by simp; omega)
    rcases h with h | ⟨w, hw, rfl, _⟩ | ⟨l, vs, hl, rfl, _⟩ | ⟨w, hw, rfl, _⟩ | ⟨l, m, hl, rfl, _⟩
    · exact through_leaf h
    · exact through_nest (Or.inr ⟨rfl, rfl⟩) hcs (by omega) (through_ws hw)
    · exact through_nest (Or.inr ⟨rfl, rfl⟩) hcs (by omega) (through_elems (hP 91) hl)
    · exact through_nest (Or.inl ⟨rfl, rfl⟩) hcs (by omega) (through_ws hw)
    · exact through_nest (Or.inl ⟨rfl, rfl⟩) hcs (by omega) (through_members (hP 123) hl)

/-! ### A whole text -/

/-- The bytes `t` of a value show their own end: it is a string, an array or an object. -/
def Closed (t : List Byte) : Prop := t.head? = some 34 ∨ t.head? = some 91 ∨ t.head? = some 123

instance (t : List Byte) : Decidable (Closed t) := by unfold Closed; infer_instance

theorem quiet_lead {a : List Byte} (h : Ws a) (data : List Byte) : Quiet { data := data } a { data := data ++ a } := by
  induction a generalizing data with
  | nil => rw [List.append_nil]; exact quiet_nil _
  | cons c a ih =>
    have := ih (fun d hd => h d (List.mem_cons_of_mem _ hd)) (data ++ [c])
    rw [List.append_assoc] at this
    refine quiet_cons rfl ?_ this
    have hs : isSpace c = true := isSpace_iff.2 (h c List.mem_cons_self)
    simp [Reader.step, hs]

theorem top_container {l data : List Byte} {o c : Byte} (hoc : (o = 123 ∧ c = 125) ∨ (o = 91 ∧ c = 93)) (h : Through [o] l) :
    ∃ q, Quiet { data := data } (o :: (l ++ [c])) q ∧ q.complete = true := by
  have h0 : Reader.step { data := data } o = some (st (data ++ [o]) [o] false false false) := by
    rcases hoc with ⟨rfl, _⟩ | ⟨rfl, _⟩ <;> rfl
  have h1 := h (data ++ [o])
  have h2 := quiet_one (r := st (data ++ [o] ++ l) [o] false false false) rfl (step_last hoc)
  exact ⟨_, quiet_cons rfl h0 (quiet_append h1 h2), rfl⟩

theorem top_leaf {t : List Byte} {v : V} (h : Leaf t v) (data : List Byte) :
    ∃ q, Quiet { data := data } t q ∧ ((Closed t ∧ q.complete = true) ∨
      (¬ Closed t ∧ q = st (data ++ t) [] true false false)) := by
  rcases scalar_mem h with ⟨l, s, hc, rfl⟩ | hm
  · have h0 : Reader.step { data := data } 34 = some (st (data ++ [34]) [] true true false) := rfl
    have h1 := quiet_chars hc (cs := []) (sc := true) (data ++ [34])
    have h2 := quiet_one (r := st (data ++ [34] ++ l) [] true true false) (c := 34)
      (r' := { st (data ++ [34] ++ l ++ [34]) [] true false false with complete := true }) rfl (by simp [Reader.step, st])
    exact ⟨_, quiet_cons rfl h0 (quiet_append h1 h2), Or.inl ⟨Or.inl rfl, rfl⟩⟩
  · obtain ⟨c, t, rfl, _⟩ := leaf_head h
    obtain ⟨⟨n1, n2, n3, n4, n5⟩, ns⟩ := hm c List.mem_cons_self
    have h0 : Reader.step { data := data } c = some (st (data ++ [c]) [] true false false) := by
      simp [Reader.step, st, n1, n2, n3, ns]
    have h1 := quiet_same (cs := []) (sc := true) (ins := false) (esc := false) (l := t) (fun d hd data => by
      have := (hm d (List.mem_cons_of_mem _ hd)).2
      simp [Reader.step, st, this]) (data ++ [c])
    rw [List.append_assoc] at h1
    refine ⟨_, quiet_cons rfl h0 h1, Or.inr ⟨?_, rfl⟩⟩
    simp [Closed, n1, n2, n3]

theorem top_val {t : List Byte} {v : V} (h : Val maxDepth t v) (data : List Byte) :
    ∃ q, Quiet { data := data } t q ∧ ((Closed t ∧ q.complete = true) ∨
      (¬ Closed t ∧ q = st (data ++ t) [] true false false)) := by
  have hP : ∀ o t v, Val 255 t v → Through [o] t := fun o t v h => through_val 255 t v h [o] (by simp) (by simp)
  have h : Val (255 + 1) t v := h
  rcases h with h | ⟨w, hw, rfl, _⟩ | ⟨l, vs, hl, rfl, _⟩ | ⟨w, hw, rfl, _⟩ | ⟨l, m, hl, rfl, _⟩
  · exact top_leaf h data
  · obtain ⟨q, h1, h2⟩ := top_container (data := data) (Or.inr ⟨rfl, rfl⟩) (through_ws (cs := [91]) hw)
    exact ⟨q, h1, Or.inl ⟨Or.inr (Or.inl rfl), h2⟩⟩
  · obtain ⟨q, h1, h2⟩ := top_container (data := data) (Or.inr ⟨rfl, rfl⟩) (through_elems (hP 91) hl)
    exact ⟨q, h1, Or.inl ⟨Or.inr (Or.inl rfl), h2⟩⟩
  · obtain ⟨q, h1, h2⟩ := top_container (data := data) (Or.inl ⟨rfl, rfl⟩) (through_ws (cs := [123]) hw)
    exact ⟨q, h1, Or.inl ⟨Or.inr (Or.inr rfl), h2⟩⟩
  · obtain ⟨q, h1, h2⟩ := top_container (data := data) (Or.inl ⟨rfl, rfl⟩) (through_members (hP 123) hl)
    exact ⟨q, h1, Or.inl ⟨Or.inr (Or.inr rfl), h2⟩⟩

theorem write_trail : ∀ {b : List Byte} {q : Reader}, Ws b → q.complete = true → ∃ q', q.write b = some q' ∧ q'.complete = true := by
  intro b
  induction b with
  | nil => intro q _ h; exact ⟨q, rfl, h⟩
  | cons c b ih =>
    intro q hb h
    have hs : isSpace c = true := isSpace_iff.2 (hb c List.mem_cons_self)
    have h1 : q.step c = some { q with data := q.data ++ [c] } := by simp [Reader.step, h, hs]
    rw [write_cons, h1]
    exact ih (fun d hd => hb d (List.mem_cons_of_mem _ hd)) h

/-- Where the value is known to be over. -/
theorem reader_text {a t b : List Byte} {v : V} (ha : Ws a) (ht : Val maxDepth t v) (hb : Ws b) :
    ∃ q, Reader.write {} (a ++ t ++ b) = some q ∧ (q.complete = true ↔ (Closed t ∨ b ≠ [])) := by
  obtain ⟨q, h1, h2⟩ := top_val ht a
  have h0 := quiet_append (quiet_lead ha []) h1
  rw [write_append, h0.1]
  dsimp only [Option.bind_some]
  rcases h2 with ⟨hc, hq⟩ | ⟨hc, rfl⟩
  · obtain ⟨q', e1, e2⟩ := write_trail hb hq
    exact ⟨q', e1, by simp [e2, hc]⟩
  · cases b with
    | nil => exact ⟨_, write_nil _, by simp [st, hc]⟩
    | cons c b =>
      have hs : isSpace c = true := isSpace_iff.2 (hb c List.mem_cons_self)
      have h1 : (st (a ++ t) [] true false false).step c = some { st (a ++ t ++ [c]) [] true false false with complete := true } := by
        simp [Reader.step, st, hs]
      rw [write_cons, h1]
      obtain ⟨q', e1, e2⟩ := write_trail (b := b) (q := { st (a ++ t ++ [c]) [] true false false with complete := true })
        (fun d hd => hb d (List.mem_cons_of_mem _ hd)) rfl
      exact ⟨q', e1, by simp [e2]⟩

/-- Before the last byte of the value it is not. -/
theorem reader_early {a t : List Byte} {v : V} (ha : Ws a) (ht : Val maxDepth t v) {p x : List Byte} (hp : a ++ t = p ++ x) (hx : x ≠ []) :
    ∃ q, Reader.write {} p = some q ∧ q.complete = false := by
  obtain ⟨q, h1, _⟩ := top_val ht a
  exact (quiet_append (quiet_lead ha []) h1).2 p x hp hx

end Nature.Json
