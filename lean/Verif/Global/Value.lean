import Verif.Global.Lemmas

/-!
# The bytes hold the value
-/

namespace Nature.Global

open Literal (Kind Written rangeCheck atoll strtoll0 digits base0 clampU clampS isUnsigned)

/-! ### Default values -/

theorem words_nil {m : Mem} {o : Nat} : Words m o [] := by intro i w h; simp at h

theorem words_cons {m : Mem} {o : Nat} {w : BitVec 64} {ws : List (BitVec 64)} (h : number m o 8 = w.toNat) (h' : Words m (o + 8) ws) :
    Words m o (w :: ws) := by
  intro i u hi
  cases i with
  | zero => simp only [List.getElem?_cons_zero, Option.some.injEq] at hi; subst hi; exact h
  | succ i =>
    have := h' i u (by simpa using hi)
    rw [show o + 8 * (i + 1) = o + 8 + 8 * i by omega]; exact this

theorem zero_number {m : Mem} {o n p k : Nat} (h : o ≤ p) (h' : p + k ≤ o + n) : number (zero m o n) p k = 0 :=
  number_zero fun _ _ _ => zero_in (by omega) (by omega)

macro "word_tac" : tactic => `(tactic|
  (repeat' first
    | exact words_nil
    | (refine words_cons ?_ ?_)
   all_goals first
    | (rw [putWord_other (by omega), putWord_other (by omega), zero_number (by omega) (by omega)]; rfl)
    | (rw [putWord_other (by omega), zero_number (by omega) (by omega)]; rfl)
    | (rw [zero_number (by omega) (by omega)]; rfl)
    | (rw [putWord_other (by omega)]; exact putWord_number)
    | exact putWord_number))

theorem int_zero {m : Mem} {o : Nat} {k : Kind} (h : ∀ x, o ≤ x → x < o + bytesOf k → m x = 0) : HasInt m o k 0 := by
  have := number_zero h
  cases k <;> simp only [HasInt, signedNumber, bytesOf] at * <;> rw [this] <;> rfl

theorem arr_apart {a i j n : Nat} (h : i < j) : a + i * n + n ≤ a + j * n := by
  have : (i + 1) * n ≤ j * n := Nat.mul_le_mul_right _ h
  rw [Nat.add_mul, Nat.one_mul] at this
  omega

theorem default_elem {E : Env} {e : Ty} {v : Val} (ih : ∀ o m, Holds E (writeDefault E e o m) e o v) {n i : Nat} (hi : i < n) (o : Nat) (m : Mem) :
    Holds E (writeDefault E (.arr e n) o m) e (o + i * size e) v := by
  have hd := (default_arr E e n o m).symm
  have hget : ∀ (i : Nat) f, ((arrSteps E e n o).map fun g m => some (g m))[i]? = some f → f = fun m => some (writeDefault E e (o + i * size e) m) := by
    intro i f h
    simp only [arrSteps, List.getElem?_map] at h
    by_cases hi : i < n
    · rw [List.getElem?_range hi] at h
      simp only [Option.map_some, Option.some.injEq] at h
      exact h.symm
    · rw [List.getElem?_eq_none (by simp; omega)] at h; simp at h
  have hs := (runAll_spec _ (fun i => o + i * size e) (fun i => o + i * size e + size e) _ _ hd (by
    intro i f hf m1 m2 h12 x hx
    rw [hget i f hf] at h12
    simp only [Option.some.injEq] at h12
    subst h12
    exact default_frame E e _ _ x (by omega)) (by
    intro i j hij _
    exact .inl (arr_apart hij))).1 i
  obtain ⟨m1, m2, h12, hx⟩ := hs (fun m => some (writeDefault E e (o + i * size e) m)) (by simp only [arrSteps, List.getElem?_map, List.getElem?_range hi, Option.map_some])
  simp only [Option.some.injEq] at h12
  subst h12
  exact holds_congr (ih _ m1) hx

theorem default_field {E : Env} {ts : Tys} {t : Ty} {v : Val} (ih : ∀ o m, Holds E (writeDefault E t o m) t o v) {i a o : Nat}
    (ht : ts.toList[i]? = some t) (ha : offset ts i = some a) {z m' : Mem}
    (h : runAll ((fieldSteps E ts o).map fun g m => some (g m)) z = some m') : Holds E m' t (o + a) v := by
  have hsz : ∀ (i : Nat) u, ts.toList[i]? = some u → (ts.toList[i]?.map size).getD 0 = size u := by intro i u h; rw [h]; rfl
  have hs := (runAll_spec _ (fun i => o + (offset ts i).getD 0) (fun i => o + (offset ts i).getD 0 + (ts.toList[i]?.map size).getD 0) _ _ h (by
    intro i f hf m1 m2 h12 x hx
    obtain ⟨u, b, hu, hb, rfl⟩ := fieldSteps_get hf
    simp only [Option.some.injEq] at h12
    subst h12
    rw [hsz i u hu, hb, Option.getD_some] at hx
    exact default_frame E u _ _ x (by omega)) (by
    intro i j hij hj
    simp only [fieldSteps, List.length_map, List.length_mapIdx] at hj
    have h1 : ts.toList[i]? = some (ts.toList[i]'(by omega)) := List.getElem?_eq_getElem _
    have h2 : ts.toList[j]? = some (ts.toList[j]'hj) := List.getElem?_eq_getElem _
    obtain ⟨b, hb⟩ := offset_some (ts := ts) (i := i) (by omega)
    obtain ⟨c, hc⟩ := offset_some (ts := ts) (i := j) hj
    rw [hsz i _ h1, hsz j _ h2, hb, hc]
    have := field_apart h1 hb h2 hc (by omega)
    simp only [Option.getD_some]
    omega)).1 i
  have hi : i < ts.toList.length := (List.getElem?_eq_some_iff.1 ht).1
  obtain ⟨m1, m2, h12, hx⟩ := hs (fun m => some (writeDefault E t (o + a) m)) (by
    simp only [fieldSteps, List.getElem?_map, List.getElem?_mapIdx, ht, Option.map_some, ha, Option.getD_some])
  simp only [Option.some.injEq] at h12
  subst h12
  rw [hsz i t ht, ha] at hx
  exact holds_congr (ih _ m1) hx

theorem plainAll_mem {ts : Tys} {t : Ty} (h : PlainAll ts) (ht : t ∈ ts.toList) : Plain t := by
  match ts, h, ht with
  | .cons u rest, h, ht =>
    rw [PlainAll] at h
    rw [Tys.toList, List.mem_cons] at ht
    rcases ht with rfl | ht
    · exact h.1
    · exact plainAll_mem h.2 ht

theorem default_holds {E : Env} {t : Ty} {v : Val} (h : Default t v) : Plain t → ∀ o m, Holds E (writeDefault E t o m) t o v := by
  induction h with
  | bool => intro _ o m; rw [writeDefault]; exact .bool (by rw [zero_in (Nat.le_refl _) (by rw [size_bool]; omega)]; rfl)
  | int => intro _ o m; rw [writeDefault, size_int]; exact .int (int_zero fun _ h1 h2 => zero_in h1 h2)
  | anyptr => intro _ o m; rw [writeDefault, size_anyptr]; exact .anyptr (int_zero fun _ h1 h2 => zero_in h1 h2)
  | f32 => intro _ o m; rw [writeDefault, size_f32]; exact .f32zero (zero_number (Nat.le_refl _) (Nat.le_refl _))
  | f64 => intro _ o m; rw [writeDefault, size_f64]; exact .f64zero (zero_number (Nat.le_refl _) (Nat.le_refl _))
  | ptr => intro _ o m; rw [writeDefault, size_ptr]; exact .ptr (zero_number (Nat.le_refl _) (Nat.le_refl _))
  | string => intro _ o m; rw [writeDefault, size_string]; refine .string ?_; word_tac
  | vec => intro _ o m; rw [writeDefault, size_vec]; refine .vec ?_; word_tac
  | map => intro _ o m; rw [writeDefault, size_map]; refine .map ?_; word_tac
  | set => intro _ o m; rw [writeDefault, size_set]; refine .set ?_; word_tac
  | nullable => intro hp; rw [Plain] at hp; exact hp.elim
  | any => intro hp; rw [Plain] at hp; exact hp.elim
  | arr hl _ ih =>
    intro hp o m
    rw [Plain] at hp
    refine .arr hl fun i v hv => default_elem (fun o m => ih v (List.mem_of_getElem? hv) hp o m) ?_ o m
    have := (List.getElem?_eq_some_iff.1 hv).1
    omega
  | tuple hl _ ih =>
    intro hp o m
    rw [Plain] at hp
    exact .tuple hl fun i t a v ht ha hv =>
      default_field (fun o m => ih i t v ht hv (plainAll_mem hp (List.mem_of_getElem? ht)) o m) ht ha (default_tuple E _ o m).symm
  | struct hl _ ih =>
    intro hp o m
    rw [Plain] at hp
    exact .struct hl fun i t a v ht ha hv =>
      default_field (fun o m => ih i t v ht hv (plainAll_mem hp (List.mem_of_getElem? ht)) o m) ht ha (default_struct E _ _ o m).symm

/-! ### Frames -/

theorem literal_frame {E : Env} {t : Ty} {l : Lit} {o x : Nat} {m m' : Mem} (h : writeLiteral E t l o m = some m')
    (hx : x < o ∨ o + size t ≤ x) : m' x = m x := by
  have hput : ∀ n u, (x < o ∨ o + n ≤ x) → put m o (le n u) x = m x := fun n u h => put_out (by rw [le_length]; exact h)
  unfold writeLiteral at h
  split at h
  · split at h
    · simp only [Option.some.injEq] at h; subst h; exact default_frame E _ _ _ x hx
    · simp at h
  · simp only [Option.map_eq_some_iff] at h
    obtain ⟨b, _, rfl⟩ := h
    exact put_out (by rw [size_bool] at hx; exact hx)
  · simp only [Option.some.injEq] at h; subst h; exact hput _ _ (by rw [size_f32] at hx; exact hx)
  · simp only [Option.some.injEq] at h; subst h; exact hput _ _ (by rw [size_f64] at hx; exact hx)
  · rw [size_int] at hx
    split at h <;>
    · simp only [Option.map_eq_some_iff] at h
      obtain ⟨b, _, rfl⟩ := h
      exact hput _ _ hx
  · simp only [Option.map_eq_some_iff] at h
    obtain ⟨b, _, rfl⟩ := h
    exact hput _ _ (by rw [size_anyptr] at hx; exact hx)
  · simp only [Option.some.injEq] at h; subst h; exact zero_out hx
  · simp only [Option.bind_eq_some_iff] at h
    obtain ⟨b, _, h⟩ := h
    split at h
    · simp only [Option.some.injEq] at h; subst h; exact zero_out hx
    · simp at h
  · simp only [Option.some.injEq] at h; subst h; exact zero_out hx
  · simp at h

theorem as_frame {E : Env} {t : Ty} {k : Kind} {neg : Bool} {w : List Char} {o x : Nat} {m m' : Mem} (h : writeAs E t k neg w o m = some m')
    (hx : x < o ∨ o + size t ≤ x) : m' x = m x := by
  unfold writeAs at h
  split at h
  · split at h
    · split at h
      · exact literal_frame h hx
      · simp at h
    · simp at h
  · simp at h

theorem writers_eq (E : Env) : ∀ es : Inits, writers E es = es.toList.map fun e t => writeExpr E t e
  | .nil => by simp [writers, Inits.toList]
  | .cons e rest => by simp [writers, Inits.toList, writers_eq E rest]

theorem field_frame {ts : Tys} {o i x : Nat} {w : Ty → Nat → Mem → Option Mem} {m m' : Mem} (names : List Nat)
    (hw : ∀ t o m m', w t o m = some m' → (x < o ∨ o + size t ≤ x) → m' x = m x) (h : writeField ts o i w m = some m')
    (hx : x < o ∨ o + size (.struct names ts) ≤ x) : m' x = m x := by
  unfold writeField at h
  split at h
  · next t a ht ha =>
    have := field_in names ht ha
    exact hw t _ _ _ h (by omega)
  · simp at h

mutual
/-- An initializer is written within the place of its variable. -/
theorem expr_frame (E : Env) : (e : Init) → ∀ (t : Ty) (o : Nat) (m m' : Mem) (x : Nat), writeExpr E t e o m = some m' →
    (x < o ∨ o + size t ≤ x) → m' x = m x
  | .lit l => by
    intro t o m m' x h hx
    simp only [writeExpr, Option.bind_eq_some_iff] at h
    obtain ⟨l', _, h⟩ := h
    exact literal_frame h hx
  | .as k neg w => by
    intro t o m m' x h hx
    rw [writeExpr] at h
    exact as_frame h hx
  | .dflt => by
    intro t o m m' x h hx
    rw [writeExpr, Option.some.injEq] at h
    subst h
    exact default_frame E t o m x hx
  | .arr es => by
    intro t o m m' x h hx
    cases t <;> simp only [writeExpr, reduceCtorEq] at h
    rename_i e n
    split at h
    · next hn =>
      rw [runAll_frame _ _ _ x h, default_frame E _ _ _ x hx]
      intro f hf m1 m2 h12
      obtain ⟨i, hi⟩ := List.getElem?_of_mem hf
      rw [List.getElem?_mapIdx] at hi
      cases hw : (writers E es)[i]? with
      | none => rw [hw] at hi; simp at hi
      | some w =>
        rw [hw] at hi
        simp only [Option.map_some, Option.some.injEq] at hi
        subst hi
        have hin : i < n := Nat.lt_of_lt_of_le (List.getElem?_eq_some_iff.1 hw).1 hn
        have : (i + 1) * size e ≤ n * size e := Nat.mul_le_mul_right _ hin
        rw [Nat.add_mul, Nat.one_mul] at this
        rw [size_arr] at hx
        exact exprs_frame E es w (List.mem_of_getElem? hw) e _ _ _ x h12 (by omega)
    · simp at h
  | .rep y neg w => by
    intro t o m m' x h hx
    cases t <;> simp only [writeExpr, reduceCtorEq] at h
    rename_i e n
    split at h
    · rw [runAll_frame _ _ _ x h, default_frame E _ _ _ x hx]
      intro f hf m1 m2 h12
      simp only [List.mem_map, List.mem_range] at hf
      obtain ⟨i, hin, rfl⟩ := hf
      have : (i + 1) * size e ≤ n * size e := Nat.mul_le_mul_right _ hin
      rw [Nat.add_mul, Nat.one_mul] at this
      rw [size_arr] at hx
      exact expr_frame E y e _ _ _ x h12 (by omega)
    · simp at h
  | .tuple es => by
    intro t o m m' x h hx
    cases t <;> simp only [writeExpr, reduceCtorEq] at h
    rename_i ts
    split at h
    · rw [runAll_frame _ _ _ x h, default_frame E _ _ _ x hx]
      intro f hf m1 m2 h12
      obtain ⟨i, hi⟩ := List.getElem?_of_mem hf
      rw [List.getElem?_mapIdx] at hi
      cases hw : (writers E es)[i]? with
      | none => rw [hw] at hi; simp at hi
      | some w =>
        rw [hw] at hi
        simp only [Option.map_some, Option.some.injEq] at hi
        subst hi
        exact field_frame [] (fun t o m m' => exprs_frame E es w (List.mem_of_getElem? hw) t o m m' x) h12 (by rw [← size_tuple]; exact hx)
    · simp at h
  | .struct ns es => by
    intro t o m m' x h hx
    cases t <;> simp only [writeExpr, reduceCtorEq] at h
    rename_i names ts
    rw [runAll_frame _ _ _ x h, default_frame E _ _ _ x hx]
    intro f hf m1 m2 h12
    obtain ⟨i, hi⟩ := List.getElem?_of_mem hf
    rw [List.getElem?_zipWith_eq_some] at hi
    obtain ⟨n, w, hn, hw, rfl⟩ := hi
    unfold writeNamed at h12
    split at h12
    · exact field_frame names (fun t o m m' => exprs_frame E es w (List.mem_of_getElem? hw) t o m m' x) h12 hx
    · simp at h12
  | .vec es => by
    intro t o m m' x h hx
    cases t <;> simp only [writeExpr, reduceCtorEq] at h
    split at h
    · simp only [Option.some.injEq] at h; subst h; exact default_frame E _ o m x hx
    · simp at h
  | .map es => by
    intro t o m m' x h hx
    cases t <;> simp only [writeExpr, reduceCtorEq] at h
    split at h
    · simp only [Option.some.injEq] at h; subst h; exact default_frame E _ o m x hx
    · simp at h
  | .set es => by
    intro t o m m' x h hx
    cases t <;> simp only [writeExpr, reduceCtorEq] at h
    split at h
    · simp only [Option.some.injEq] at h; subst h; exact default_frame E _ o m x hx
    · simp at h
  | .curly => by
    intro t o m m' x h hx
    cases t <;> simp only [writeExpr, reduceCtorEq] at h
    all_goals (simp only [Option.some.injEq] at h; subst h; exact default_frame E _ o m x hx)
theorem exprs_frame (E : Env) : (es : Inits) → ∀ w, w ∈ writers E es → ∀ (t : Ty) (o : Nat) (m m' : Mem) (x : Nat), w t o m = some m' →
    (x < o ∨ o + size t ≤ x) → m' x = m x
  | .nil => by intro w hw; simp [writers] at hw
  | .cons e rest => by
    intro w hw t o m m' x h hx
    rw [writers, List.mem_cons] at hw
    rcases hw with e1 | hw
    · rw [e1] at h; exact expr_frame E e t o m m' x h hx
    · exact exprs_frame E rest w hw t o m m' x h hx
end

/-! ### Literals -/

theorem written_val {k : Kind} {neg : Bool} {w : List Char} {v : Int} (h : Written neg w v) (hk : k.Has v) :
    rangeCheck k (atoll neg w) = true ∧ asI64 (.int k neg w) = some v ∧ asU64 (.int k neg w) = some v := by
  have := Literal.compile_written h hk
  unfold Literal.compile at this
  split at this
  · next hr =>
    simp only at this
    split at this
    · next hd =>
      simp only [Literal.Res.ok.injEq] at this
      refine ⟨hr, ?_, ?_⟩ <;> simp only [asI64, asU64, whole, hd, List.isEmpty_nil, if_true, strtoull0, strtoll0] <;> rw [this]
    · cases this
  · cases this

theorem hasInt_put {m : Mem} {o : Nat} {k : Kind} {v : Int} (hk : k.Has v) : HasInt (put m o (le (bytesOf k) (u64 v))) o k v := by
  have h := number_put (m := m) (o := o) (n := bytesOf k) (u := u64 v) _ (Nat.le_refl _)
  obtain ⟨h1, h2⟩ := hk
  generalize put m o (le (bytesOf k) (u64 v)) = m' at h ⊢
  cases k <;> simp only [HasInt, signedNumber, bytesOf, Kind.min, Kind.max, u64] at * <;> rw [h] <;> (try split) <;> omega

/-! ### Initializers -/

theorem fields_run {E : Env} {ts : Tys} {o : Nat} (fs : List (Mem → Option Mem)) (idx : Nat → Nat) (val : Nat → Val) (z : Mem)
    (hinj : ∀ p q, p < q → q < fs.length → idx p ≠ idx q) (hlt : ∀ p, p < fs.length → idx p < ts.toList.length)
    (hstep : ∀ p f t a, fs[p]? = some f → ts.toList[idx p]? = some t → offset ts (idx p) = some a →
      (∀ m, ∃ m', f m = some m' ∧ Holds E m' t (o + a) (val (idx p))) ∧
      ∀ m m', f m = some m' → ∀ x, (x < o + a ∨ o + a + size t ≤ x) → m' x = m x) :
    ∃ m', runAll fs z = some m' ∧
      (∀ p t a, p < fs.length → ts.toList[idx p]? = some t → offset ts (idx p) = some a → Holds E m' t (o + a) (val (idx p))) ∧
      (∀ i t a, ts.toList[i]? = some t → offset ts i = some a → (∀ p, p < fs.length → idx p ≠ i) →
        ∀ x, o + a ≤ x → x < o + a + size t → m' x = z x) := by
  have hsome : ∀ p, p < fs.length → ∃ t a, ts.toList[idx p]? = some t ∧ offset ts (idx p) = some a := by
    intro p hp
    obtain ⟨a, ha⟩ := offset_some (hlt p hp)
    exact ⟨_, a, List.getElem?_eq_getElem (hlt p hp), ha⟩
  obtain ⟨m', hm'⟩ := runAll_total fs z (by
    intro f hf m
    obtain ⟨p, hp⟩ := List.getElem?_of_mem hf
    obtain ⟨t, a, ht, ha⟩ := hsome p (List.getElem?_eq_some_iff.1 hp).1
    obtain ⟨m', h, _⟩ := (hstep p f t a hp ht ha).1 m
    exact ⟨m', h⟩)
  have hs := runAll_spec fs (fun p => o + (offset ts (idx p)).getD 0)
    (fun p => o + (offset ts (idx p)).getD 0 + (ts.toList[idx p]?.map size).getD 0) z m' hm' (by
    intro p f hf m1 m2 h12 x hx
    obtain ⟨t, a, ht, ha⟩ := hsome p (List.getElem?_eq_some_iff.1 hf).1
    rw [ht, ha] at hx
    exact (hstep p f t a hf ht ha).2 m1 m2 h12 x hx) (by
    intro p q hpq hq
    obtain ⟨t, a, ht, ha⟩ := hsome p (by omega)
    obtain ⟨u, b, hu, hb⟩ := hsome q hq
    have := field_apart ht ha hu hb (hinj p q hpq hq)
    rw [ht, ha, hu, hb]
    simp only [Option.getD_some, Option.map_some]
    omega)
  refine ⟨m', hm', fun p t a hp ht ha => ?_, fun i t a ht ha hne x h1 h2 => ?_⟩
  · obtain ⟨m1, m2, h12, hx⟩ := hs.1 p fs[p] (List.getElem?_eq_getElem hp)
    obtain ⟨m3, h3, hh⟩ := (hstep p _ t a (List.getElem?_eq_getElem hp) ht ha).1 m1
    rw [h12, Option.some.injEq] at h3
    subst h3
    rw [ht, ha] at hx
    exact holds_congr hh hx
  · refine hs.2 x fun p hp => ?_
    obtain ⟨u, b, hu, hb⟩ := hsome p hp
    have := field_apart hu hb ht ha (hne p hp)
    rw [hu, hb]
    simp only [Option.getD_some, Option.map_some]
    omega

theorem writeField_eq {ts : Tys} {o i a : Nat} {t : Ty} {w : Ty → Nat → Mem → Option Mem} {m : Mem} (ht : ts.toList[i]? = some t)
    (ha : offset ts i = some a) : writeField ts o i w m = w t (o + a) m := by
  unfold writeField; rw [ht, ha]

/-- The elements of an array. -/
theorem elems_run {E : Env} {e : Ty} {o : Nat} (fs : List (Mem → Option Mem)) (val : Nat → Val) (z : Mem)
    (hstep : ∀ (i : Nat) f, fs[i]? = some f → (∀ m, ∃ m', f m = some m' ∧ Holds E m' e (o + i * size e) (val i)) ∧
      ∀ m m', f m = some m' → ∀ x, (x < o + i * size e ∨ o + i * size e + size e ≤ x) → m' x = m x) :
    ∃ m', runAll fs z = some m' ∧ (∀ i, i < fs.length → Holds E m' e (o + i * size e) (val i)) ∧
      (∀ i, fs.length ≤ i → ∀ x, o + i * size e ≤ x → x < o + i * size e + size e → m' x = z x) := by
  obtain ⟨m', hm'⟩ := runAll_total fs z (by
    intro f hf m
    obtain ⟨p, hp⟩ := List.getElem?_of_mem hf
    obtain ⟨m', h, _⟩ := (hstep p f hp).1 m
    exact ⟨m', h⟩)
  have hs := runAll_spec fs (fun i => o + i * size e) (fun i => o + i * size e + size e) z m' hm'
    (fun i f hf m1 m2 h12 x hx => (hstep i f hf).2 m1 m2 h12 x hx) (fun i j hij _ => .inl (arr_apart hij))
  refine ⟨m', hm', fun i hi => ?_, fun i hi x h1 h2 => ?_⟩
  · obtain ⟨m1, m2, h12, hx⟩ := hs.1 i fs[i] (List.getElem?_eq_getElem hi)
    obtain ⟨m3, h3, hh⟩ := (hstep i _ (List.getElem?_eq_getElem hi)).1 m1
    rw [h12, Option.some.injEq] at h3
    subst h3
    exact holds_congr hh hx
  · refine hs.2 x fun p hp => ?_
    have := arr_apart (a := o) (n := size e) (show p < i by omega)
    omega

theorem value_holds {E : Env} {A : Kind → Int → Prop} (hA : ∀ k v, A k v → v < 2 ^ 63) {t : Ty} {e : Init} {v : Val} (h : Denotes A t e v) :
    Plain t → ∀ o m, ∃ m', writeExpr E t e o m = some m' ∧ Holds E m' t o v := by
  induction h with
  | @bool b =>
    intro _ o m
    refine ⟨_, by rw [writeExpr, inferLit, Option.bind_some, writeLiteral, asBool, Option.map_some], .bool ?_⟩
    have := put_at (m := m) (o := o) (i := 0) (bs := [if b then 1 else 0]) (by simp)
    exact this
  | int h hk =>
    intro _ o m
    obtain ⟨h1, h2, h3⟩ := written_val h hk
    refine ⟨_, ?_, .int (hasInt_put (m := m) hk)⟩
    rw [writeExpr, inferLit, if_pos h1, Option.bind_some, writeLiteral, h2, h3]
    split <;> rfl
  | @cast k neg w v h hk ha =>
    intro _ o m
    obtain ⟨h1, _, _⟩ := written_val h hk
    obtain ⟨_, h2, h3⟩ := written_val (k := .i64) h (by
      have := hA k v ha
      obtain ⟨a, b⟩ := hk
      refine ⟨?_, by simp only [Kind.max]; omega⟩
      cases k <;> simp only [Kind.min] at a ⊢ <;> omega)
    refine ⟨_, ?_, .int (hasInt_put (m := m) hk)⟩
    simp only [writeExpr, writeAs, h1, if_true]
    rw [writeLiteral, h2, h3]
    split <;> rfl
  | anyptr h hk =>
    intro _ o m
    obtain ⟨h1, h2, h3⟩ := written_val h hk
    refine ⟨_, ?_, .anyptr (hasInt_put (m := m) (k := .u64) hk)⟩
    rw [writeExpr, inferLit, if_pos h1, Option.bind_some, writeLiteral, h3]
    rfl
  | anyptrNull =>
    intro _ o m
    have : asU64 (.int .u64 false ['0']) = some 0 := by decide
    refine ⟨_, ?_, .anyptr (hasInt_put (m := m) (k := .u64) (v := 0) (by constructor <;> decide))⟩
    rw [writeExpr, inferLit, Option.bind_some, writeLiteral, this]
    rfl
  | f32 =>
    intro _ o m
    refine ⟨_, by rw [writeExpr, inferLit, Option.bind_some, writeLiteral], .f32 ?_⟩
    rw [number_put 4 (Nat.le_refl _)]
    exact Nat.mod_eq_of_lt (by have := (E.f32 ‹_›).isLt; omega)
  | f64 =>
    intro _ o m
    refine ⟨_, by rw [writeExpr, inferLit, Option.bind_some, writeLiteral], .f64 ?_⟩
    rw [number_put 8 (Nat.le_refl _), word_lt]
  | f32int =>
    intro _ o m
    refine ⟨_, by rw [writeExpr, inferLit, Option.bind_some, writeLiteral, signed, if_neg (by decide)], .f32 ?_⟩
    rw [number_put 4 (Nat.le_refl _)]
    exact Nat.mod_eq_of_lt (by have := (E.f32 ‹_›).isLt; omega)
  | f64int =>
    intro _ o m
    refine ⟨_, by rw [writeExpr, inferLit, Option.bind_some, writeLiteral, signed, if_neg (by decide)], .f64 ?_⟩
    rw [number_put 8 (Nat.le_refl _), word_lt]
  | @f32neg w =>
    intro _ o m
    refine ⟨_, by rw [writeExpr, inferLit, Option.bind_some, writeLiteral, signed, if_pos rfl], .f32 ?_⟩
    rw [number_put 4 (Nat.le_refl _)]
    exact Nat.mod_eq_of_lt (by have := (E.f32 ('-' :: w)).isLt; omega)
  | f64neg =>
    intro _ o m
    refine ⟨_, by rw [writeExpr, inferLit, Option.bind_some, writeLiteral, signed, if_pos rfl], .f64 ?_⟩
    rw [number_put 8 (Nat.le_refl _), word_lt]
  | ptr =>
    intro _ o m
    refine ⟨_, by rw [writeExpr, inferLit, Option.bind_some, writeLiteral], .ptr ?_⟩
    rw [size_ptr]
    exact zero_number (Nat.le_refl _) (Nat.le_refl _)
  | nullable => intro hp; rw [Plain] at hp; exact hp.elim
  | string =>
    intro hp o m
    exact ⟨_, by rw [writeExpr, inferLit, Option.bind_some, writeLiteral, if_pos rfl], default_holds .string hp o m⟩
  | vec =>
    intro hp o m
    exact ⟨_, by simp only [writeExpr, writers, List.length_nil, if_true], default_holds .vec hp o m⟩
  | map =>
    intro hp o m
    exact ⟨_, by simp only [writeExpr, writers, List.length_nil, if_true], default_holds .map hp o m⟩
  | set =>
    intro hp o m
    exact ⟨_, by simp only [writeExpr, writers, List.length_nil, if_true], default_holds .set hp o m⟩
  | mapCurly =>
    intro hp o m
    exact ⟨_, by simp only [writeExpr], default_holds .map hp o m⟩
  | setCurly =>
    intro hp o m
    exact ⟨_, by simp only [writeExpr], default_holds .set hp o m⟩
  | dflt h =>
    intro hp o m
    exact ⟨_, by rw [writeExpr], default_holds h hp o m⟩
  | @arr e n es vs ds hl hn _ hds ih =>
    intro hp o m
    rw [Plain] at hp
    have hwl : (writers E es).length = vs.length := by rw [writers_eq, List.length_map, hl]
    obtain ⟨m', h1, h2, h3⟩ := elems_run (E := E) (e := e) (o := o) ((writers E es).mapIdx fun i w => w e (o + i * size e)) (fun i => (vs[i]?).getD .null)
      (writeDefault E (.arr e n) o m) (by
      intro i f hf
      rw [List.getElem?_mapIdx, writers_eq, List.getElem?_map] at hf
      cases hx : es.toList[i]? with
      | none => rw [hx] at hf; simp at hf
      | some x =>
        rw [hx] at hf
        simp only [Option.map_some, Option.some.injEq] at hf
        subst hf
        have hi : i < vs.length := by rw [← hl]; exact (List.getElem?_eq_some_iff.1 hx).1
        refine ⟨fun m => ?_, fun m1 m2 h12 y hy => expr_frame E x e _ _ _ y h12 hy⟩
        rw [List.getElem?_eq_getElem hi, Option.getD_some]
        exact ih i x _ hx (List.getElem?_eq_getElem hi) hp _ m)
    refine ⟨m', ?_, .arr (by simp; omega) fun i v hv => ?_⟩
    · simp only [writeExpr]
      rw [if_pos (by omega)]
      exact h1
    · by_cases hi : i < vs.length
      · have := h2 i (by simp; omega)
        rw [List.getElem?_append_left hi] at hv
        rw [hv] at this
        exact this
      · rw [List.getElem?_append_right (by omega)] at hv
        have hlt := (List.getElem?_eq_some_iff.1 hv).1
        exact holds_congr (default_elem (fun o m => default_holds (hds v (List.mem_of_getElem? hv)) hp o m) (by omega) o m)
          (h3 i (by simp; omega))
  | @rep e x neg w v n hw hn _ ih =>
    intro hp o m
    rw [Plain] at hp
    obtain ⟨_, hi, _⟩ := written_val (k := .i64) hw (by constructor <;> simp only [Kind.min, Kind.max] <;> omega)
    obtain ⟨m', h1, h2, _⟩ := elems_run (E := E) (e := e) (o := o) ((List.range n).map fun i => writeExpr E e x (o + i * size e)) (fun _ => v)
      (writeDefault E (.arr e n) o m) (by
      intro i f hf
      rw [List.getElem?_map] at hf
      by_cases hi : i < n
      · rw [List.getElem?_range hi] at hf
        simp only [Option.map_some, Option.some.injEq] at hf
        subst hf
        exact ⟨fun m => ih hp _ m, fun m1 m2 h12 y hy => expr_frame E x e _ _ _ y h12 hy⟩
      · rw [List.getElem?_eq_none (by simp; omega)] at hf; simp at hf)
    refine ⟨m', ?_, .arr (by simp) fun i u hu => ?_⟩
    · simp only [writeExpr]
      rw [if_pos hi]
      exact h1
    · have hlt := (List.getElem?_eq_some_iff.1 hu).1
      simp only [List.length_replicate] at hlt
      have := h2 i (by simp; omega)
      rw [List.getElem?_replicate, if_pos hlt, Option.some.injEq] at hu
      rw [← hu]
      exact this
  | @tuple ts es vs hl hv _ ih =>
    intro hp o m
    rw [Plain] at hp
    have hwl : (writers E es).length = ts.toList.length := by rw [writers_eq, List.length_map, hl]
    obtain ⟨m', h1, h2, _⟩ := fields_run (E := E) (ts := ts) (o := o) ((writers E es).mapIdx fun i w => writeField ts o i w) (fun i => i)
      (fun i => (vs[i]?).getD .null) (writeDefault E (.tuple ts) o m) (by intro p q h _; omega) (by intro p h; simp at h; omega) (by
      intro i f t a hf ht ha
      rw [List.getElem?_mapIdx, writers_eq, List.getElem?_map] at hf
      cases hx : es.toList[i]? with
      | none => rw [hx] at hf; simp at hf
      | some x =>
        rw [hx] at hf
        simp only [Option.map_some, Option.some.injEq] at hf
        subst hf
        have hi : i < vs.length := by rw [hv]; exact (List.getElem?_eq_some_iff.1 ht).1
        refine ⟨fun m => ?_, fun m1 m2 h12 y hy => ?_⟩
        · rw [List.getElem?_eq_getElem hi, Option.getD_some, writeField_eq ht ha]
          exact ih i t x _ ht hx (List.getElem?_eq_getElem hi) (plainAll_mem hp (List.mem_of_getElem? ht)) _ m
        · rw [writeField_eq ht ha] at h12
          exact expr_frame E x t _ _ _ y h12 hy)
    refine ⟨m', ?_, .tuple hv fun i t a v ht ha hvi => ?_⟩
    · simp only [writeExpr]
      rw [if_pos hwl]
      exact h1
    · have hi := (List.getElem?_eq_some_iff.1 ht).1
      have := h2 i t a (by simp; omega) ht ha
      simp only [hvi] at this
      exact this
  | @struct names ts ns es vs hnd hnl hsd hsl hsub hv _ hdef ih =>
    intro hp o m
    rw [Plain] at hp
    have hwl : (writers E es).length = ns.length := by rw [writers_eq, List.length_map, hsl]
    -- the position of the field that is written
    have hidx : ∀ (p : Nat) n, ns[p]? = some n → ∃ i, names.findIdx? (· == n) = some i ∧ names[i]? = some n ∧ i < ts.toList.length := by
      intro p n hn
      have hm := hsub n (List.mem_of_getElem? hn)
      cases hf : names.findIdx? (· == n) with
      | none =>
        rw [List.findIdx?_eq_none_iff] at hf
        have := hf n hm
        simp at this
      | some i =>
        rw [List.findIdx?_eq_some_iff_getElem] at hf
        obtain ⟨hi, he, _⟩ := hf
        simp only [beq_iff_eq] at he
        exact ⟨i, rfl, by rw [List.getElem?_eq_getElem hi, he], by omega⟩
    have huniq : ∀ (i j : Nat) n, names[i]? = some n → names[j]? = some n → i = j := by
      intro i j n h1 h2
      have hi := (List.getElem?_eq_some_iff.1 h1).1
      exact (List.getElem?_inj hi hnd).1 (by rw [h1, h2])
    obtain ⟨m', h1, h2, h3⟩ := fields_run (E := E) (ts := ts) (o := o) (List.zipWith (writeNamed names ts o) ns (writers E es))
      (fun p => (names.findIdx? (· == ns.getD p 0)).getD 0)
      (fun i => (vs[i]?).getD .null) (writeDefault E (.struct names ts) o m) (by
        intro p q hpq hq
        simp only [List.length_zipWith, hwl, Nat.min_self] at hq
        have e1 := List.getElem?_eq_getElem (l := ns) (i := p) (by omega)
        have e2 := List.getElem?_eq_getElem (l := ns) (i := q) hq
        obtain ⟨i, f1, n1, _⟩ := hidx p _ e1
        obtain ⟨j, f2, n2, _⟩ := hidx q _ e2
        simp only [List.getD, e1, e2, Option.getD_some, f1, f2]
        intro hij
        subst hij
        rw [n1, Option.some.injEq] at n2
        have : p = q := (List.getElem?_inj (by omega) hsd).1 (by rw [e1, e2, n2])
        omega) (by
        intro p hq
        simp only [List.length_zipWith, hwl, Nat.min_self] at hq
        have e1 := List.getElem?_eq_getElem (l := ns) (i := p) (by omega)
        obtain ⟨i, f1, n1, hi⟩ := hidx p _ e1
        simp only [List.getD, e1, Option.getD_some, f1]
        exact hi) (by
      intro p f t a hf ht ha
      rw [List.getElem?_zipWith_eq_some] at hf
      obtain ⟨n, w, hn, hw, rfl⟩ := hf
      obtain ⟨i, f1, n1, hi⟩ := hidx p n hn
      simp only [List.getD, hn, Option.getD_some, f1] at ht ha ⊢
      rw [writers_eq, List.getElem?_map] at hw
      cases hx : es.toList[p]? with
      | none => rw [hx] at hw; simp at hw
      | some x =>
        rw [hx] at hw
        simp only [Option.map_some, Option.some.injEq] at hw
        subst hw
        have hvi : i < vs.length := by omega
        have heq : ∀ m, writeNamed names ts o n (fun t => writeExpr E t x) m = writeExpr E t x (o + a) m := by
          intro m
          unfold writeNamed
          rw [f1]
          exact writeField_eq ht ha
        refine ⟨fun m => ?_, fun m1 m2 h12 y hy => ?_⟩
        · rw [List.getElem?_eq_getElem hvi, Option.getD_some, heq]
          exact ih p i n t x _ hn hx n1 ht (List.getElem?_eq_getElem hvi) (plainAll_mem hp (List.mem_of_getElem? ht)) _ m
        · rw [heq] at h12
          exact expr_frame E x t _ _ _ y h12 hy)
    refine ⟨m', ?_, .struct hv fun i t a v ht ha hvi => ?_⟩
    · simp only [writeExpr]
      exact h1
    · have hi := (List.getElem?_eq_some_iff.1 ht).1
      have hn := List.getElem?_eq_getElem (l := names) (i := i) (by omega)
      by_cases hm : names[i] ∈ ns
      · obtain ⟨p, hp⟩ := List.getElem?_of_mem hm
        obtain ⟨j, f1, n1, _⟩ := hidx p _ hp
        have hij := huniq i j _ hn n1
        subst hij
        have hpl := (List.getElem?_eq_some_iff.1 hp).1
        have := h2 p t a (by simp; omega) (by simp only [List.getD, hp, Option.getD_some, f1]; exact ht)
          (by simp only [List.getD, hp, Option.getD_some, f1]; exact ha)
        simp only [List.getD, hp, Option.getD_some, f1, hvi] at this
        exact this
      · refine holds_congr (default_field (fun o m => default_holds (hdef i _ t v hn hm ht hvi) (plainAll_mem hp (List.mem_of_getElem? ht)) o m) ht ha
          (default_struct E names ts o m).symm) (h3 i t a ht ha ?_)
        intro p hpl hij
        simp only [List.length_zipWith, hwl, Nat.min_self] at hpl
        have e1 := List.getElem?_eq_getElem (l := ns) (i := p) hpl
        obtain ⟨j, f1, n1, _⟩ := hidx p _ e1
        simp only [List.getD, e1, Option.getD_some, f1] at hij
        subst hij
        rw [hn, Option.some.injEq] at n1
        exact hm (by rw [n1]; exact List.getElem_mem _)

end Nature.Global
