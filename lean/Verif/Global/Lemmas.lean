import Verif.Global.Spec
import Verif.TypeLayout.Props
import Verif.Literal.Props

/-!
# Lemmas for C102
-/

namespace Nature.Global

open Literal (Kind Written rangeCheck atoll strtoll0 digits base0 clampU isUnsigned)

/-! ### Memory -/

theorem zero_out {m : Mem} {o n x : Nat} (h : x < o ∨ o + n ≤ x) : zero m o n x = m x := by
  rw [zero, if_neg (by omega)]

theorem zero_in {m : Mem} {o n x : Nat} (h : o ≤ x) (h' : x < o + n) : zero m o n x = 0 := by
  rw [zero, if_pos ⟨h, h'⟩]

theorem put_out {m : Mem} {o x : Nat} {bs : List Byte} (h : x < o ∨ o + bs.length ≤ x) : put m o bs x = m x := by
  rw [put, if_neg (by omega)]

theorem put_at {m : Mem} {o i : Nat} {bs : List Byte} (h : i < bs.length) : put m o bs (o + i) = bs.getD i 0 := by
  rw [put, if_pos (by omega), Nat.add_sub_cancel_left]

theorem le_length (n u : Nat) : (le n u).length = n := by simp [le]

theorem le_get {n u i : Nat} (h : i < n) : (le n u).getD i 0 = BitVec.ofNat 8 (u / 256 ^ i) := by
  simp [le, List.getD, h]

theorem number_congr {m m' : Mem} {o n : Nat} (h : ∀ x, o ≤ x → x < o + n → m' x = m x) : number m' o n = number m o n := by
  induction n with
  | zero => rfl
  | succ n ih => rw [number, number, ih fun x h1 h2 => h x h1 (by omega), h (o + n) (by omega) (by omega)]

theorem number_zero {m : Mem} {o n : Nat} (h : ∀ x, o ≤ x → x < o + n → m x = 0) : number m o n = 0 := by
  induction n with
  | zero => rfl
  | succ n ih => rw [number, ih fun x h1 h2 => h x h1 (by omega), h (o + n) (by omega) (by omega)]; simp

theorem number_put {m : Mem} {o n u : Nat} : ∀ j, j ≤ n → number (put m o (le n u)) o j = u % 256 ^ j := by
  intro j
  induction j with
  | zero => intro _; rw [number, Nat.pow_zero, Nat.mod_one]
  | succ j ih =>
    intro hj
    have hp : 256 ^ (j + 1) = 256 ^ j * 256 := Nat.pow_succ _ _
    rw [number, ih (by omega), put_at (by rw [le_length]; omega), le_get (by omega), BitVec.toNat_ofNat, hp, Nat.mod_mul (x := u) (a := 256 ^ j),
      Nat.mul_comm (256 ^ j)]

theorem word_lt (w : BitVec 64) : w.toNat % 256 ^ 8 = w.toNat := Nat.mod_eq_of_lt (by have := w.isLt; omega)

theorem putWord_out {m : Mem} {o x : Nat} {w : BitVec 64} (h : x < o ∨ o + 8 ≤ x) : putWord m o w x = m x := by
  rw [putWord]; exact put_out (by rw [le_length]; exact h)

theorem putWord_number {m : Mem} {o : Nat} {w : BitVec 64} : number (putWord m o w) o 8 = w.toNat := by
  rw [putWord, number_put 8 (Nat.le_refl _), word_lt]

theorem putWord_other {m : Mem} {o o' : Nat} {w : BitVec 64} (h : o' + 8 ≤ o ∨ o + 8 ≤ o') : number (putWord m o w) o' 8 = number m o' 8 :=
  number_congr fun _ _ _ => putWord_out (by omega)

/-! ### Layout -/

theorem layAll_toList : ∀ ts : Tys, (layAll ts).toList = ts.toList.map lay
  | .nil => by simp [layAll, Tys.toList, TypeLayout.Tys.toList]
  | .cons t rest => by simp [layAll, Tys.toList, TypeLayout.Tys.toList, layAll_toList rest]

theorem size_tuple (ts : Tys) (names : List Nat) : size (.tuple ts) = size (.struct names ts) := by
  simp only [size, lay, TypeLayout.sizeOf]

theorem size_arr (e : Ty) (n : Nat) : size (.arr e n) = n * size e := by
  simp only [size, lay, TypeLayout.sizeOf]

theorem offset_some {ts : Tys} {i : Nat} (h : i < ts.toList.length) : ∃ a, offset ts i = some a := by
  have := (TypeLayout.C60_layout (layAll ts)).1 i
  rw [offset, this]
  have hl := (TypeLayout.C60_layout (layAll ts)).2.1
  rw [layAll_toList, List.length_map] at hl
  exact ⟨_, List.getElem?_eq_getElem (by omega)⟩

theorem field_in {ts : Tys} {i a : Nat} {t : Ty} (names : List Nat) (ht : ts.toList[i]? = some t) (ha : offset ts i = some a) :
    a + size t ≤ size (.struct names ts) := by
  have := (TypeLayout.C60_fields (layAll ts) i (lay t) a (by rw [layAll_toList, List.getElem?_map, ht]; rfl) ha).1
  simpa only [size, lay] using this

theorem field_apart {ts : Tys} {i j a b : Nat} {t u : Ty} (ht : ts.toList[i]? = some t) (ha : offset ts i = some a)
    (hu : ts.toList[j]? = some u) (hb : offset ts j = some b) (h : i ≠ j) : a + size t ≤ b ∨ b + size u ≤ a := by
  exact (TypeLayout.C60_fields (layAll ts) i (lay t) a (by rw [layAll_toList, List.getElem?_map, ht]; rfl) ha).2.1 j (lay u) b
    (by rw [layAll_toList, List.getElem?_map, hu]; rfl) hb h

theorem size_int (k : Kind) : size (.int k) = bytesOf k := by
  cases k <;> simp only [size, lay, TypeLayout.sizeOf, bytesOf]

theorem size_bool : size .bool = 1 := by simp only [size, lay, TypeLayout.sizeOf]
theorem size_f32 : size .f32 = 4 := by simp only [size, lay, TypeLayout.sizeOf]
theorem size_f64 : size .f64 = 8 := by simp only [size, lay, TypeLayout.sizeOf]
theorem size_anyptr : size .anyptr = 8 := by simp only [size, lay, TypeLayout.sizeOf]
theorem size_ptr : size .ptr = 8 := by simp only [size, lay, TypeLayout.sizeOf]
theorem size_string : size .string = 48 := by simp only [size, lay, TypeLayout.sizeOf, TypeLayout.Header.size]
theorem size_vec (e : Ty) : size (.vec e) = 48 := by simp only [size, lay, TypeLayout.sizeOf, TypeLayout.Header.size]
theorem size_map (k v : Ty) : size (.map k v) = 56 := by simp only [size, lay, TypeLayout.sizeOf, TypeLayout.Header.size]
theorem size_set (e : Ty) : size (.set e) = 40 := by simp only [size, lay, TypeLayout.sizeOf, TypeLayout.Header.size]
theorem size_any : size .any = 16 := by simp only [size, lay, TypeLayout.sizeOf]
theorem size_nullable (e : Ty) : 8 ≤ size (.nullable e) := by simp only [size, lay, TypeLayout.sizeOf]; omega

/-! ### Loops -/

theorem runAll_spec : ∀ (fs : List (Mem → Option Mem)) (lo hi : Nat → Nat) (m m' : Mem), runAll fs m = some m' →
    (∀ i f, fs[i]? = some f → ∀ m m', f m = some m' → ∀ x, (x < lo i ∨ hi i ≤ x) → m' x = m x) →
    (∀ i j, i < j → j < fs.length → hi i ≤ lo j ∨ hi j ≤ lo i) →
    (∀ (i : Nat) f, fs[i]? = some f → ∃ m1 m2, f m1 = some m2 ∧ ∀ x, lo i ≤ x → x < hi i → m' x = m2 x) ∧
    (∀ x, (∀ i, i < fs.length → x < lo i ∨ hi i ≤ x) → m' x = m x) := by
  intro fs
  induction fs with
  | nil =>
    intro lo hi m m' h _ _
    simp only [runAll, Option.some.injEq] at h
    subst h
    exact ⟨by simp, fun _ _ => rfl⟩
  | cons f fs ih =>
    intro lo hi m m' h hf hd
    simp only [runAll] at h
    cases hm : f m with
    | none => rw [hm] at h; simp at h
    | some m1 =>
      rw [hm, Option.bind_some] at h
      have := ih (fun i => lo (i + 1)) (fun i => hi (i + 1)) m1 m' h (fun i g hg => hf (i + 1) g (by simpa using hg))
        (fun i j hij hj => hd (i + 1) (j + 1) (by omega) (by simp; omega))
      refine ⟨fun i g hg => ?_, fun x hx => ?_⟩
      · cases i with
        | zero =>
          simp only [List.getElem?_cons_zero, Option.some.injEq] at hg
          subst hg
          refine ⟨m, m1, hm, fun x h1 h2 => this.2 x fun i hi => ?_⟩
          have := hd 0 (i + 1) (by omega) (by simp; omega)
          omega
        | succ i => exact this.1 i g (by simpa using hg)
      · rw [this.2 x fun i hi => hx (i + 1) (by simp; omega)]
        exact hf 0 f (by simp) m m1 hm x (hx 0 (by simp))

/-- What all steps leave alone stays. -/
theorem runAll_frame : ∀ (fs : List (Mem → Option Mem)) (m m' : Mem) (x : Nat), runAll fs m = some m' →
    (∀ f, f ∈ fs → ∀ m m', f m = some m' → m' x = m x) → m' x = m x := by
  intro fs
  induction fs with
  | nil => intro m m' x h _; simp only [runAll, Option.some.injEq] at h; rw [h]
  | cons f fs ih =>
    intro m m' x h hf
    simp only [runAll] at h
    cases hm : f m with
    | none => rw [hm] at h; simp at h
    | some m1 =>
      rw [hm, Option.bind_some] at h
      rw [ih m1 m' x h fun g hg => hf g (by simp [hg]), hf f (by simp) m m1 hm]

theorem runAll_total : ∀ (fs : List (Mem → Option Mem)) (m : Mem), (∀ f, f ∈ fs → ∀ m, ∃ m', f m = some m') → ∃ m', runAll fs m = some m' := by
  intro fs
  induction fs with
  | nil => intro m _; exact ⟨m, rfl⟩
  | cons f fs ih =>
    intro m h
    obtain ⟨m1, h1⟩ := h f (by simp) m
    obtain ⟨m2, h2⟩ := ih m1 fun g hg => h g (by simp [hg])
    exact ⟨m2, by rw [runAll, h1, Option.bind_some, h2]⟩

theorem runAll_some (gs : List (Mem → Mem)) : ∀ m, runAll (gs.map fun g m => some (g m)) m = some (gs.foldl (fun m g => g m) m) := by
  induction gs with
  | nil => intro m; rfl
  | cons g gs ih => intro m; rw [List.map_cons, runAll, Option.bind_some, ih, List.foldl_cons]

/-! ### Default values -/

theorem defaultWriters_eq (E : Env) : ∀ ts : Tys, defaultWriters E ts = ts.toList.map (writeDefault E)
  | .nil => by simp [defaultWriters, Tys.toList]
  | .cons t rest => by simp [defaultWriters, Tys.toList, defaultWriters_eq E rest]

/-- The steps of the default value of an array. -/
def arrSteps (E : Env) (e : Ty) (n o : Nat) : List (Mem → Mem) := (List.range n).map fun i => writeDefault E e (o + i * size e)

/-- The steps of the default value of a struct or tuple. -/
def fieldSteps (E : Env) (ts : Tys) (o : Nat) : List (Mem → Mem) :=
  ts.toList.mapIdx fun i t => writeDefault E t (o + (offset ts i).getD 0)

theorem default_arr (E : Env) (e : Ty) (n o : Nat) (m : Mem) :
    some (writeDefault E (.arr e n) o m) = runAll ((arrSteps E e n o).map fun g m => some (g m)) (zero m o (size (.arr e n))) := by
  rw [runAll_some, writeDefault, arrSteps, List.foldl_map]

theorem fold_eq (E : Env) (ts : Tys) (o : Nat) (z : Mem) :
    ((defaultWriters E ts).mapIdx fun i w => (w, offset ts i)).foldl (fun m p => p.1 (o + p.2.getD 0) m) z =
      (fieldSteps E ts o).foldl (fun m g => g m) z := by
  have : fieldSteps E ts o =
      ((defaultWriters E ts).mapIdx fun i w => (w, offset ts i)).map fun p => p.1 (o + p.2.getD 0) := by
    rw [fieldSteps, defaultWriters_eq]
    apply List.ext_getElem? 
    intro i
    simp only [List.getElem?_mapIdx, List.getElem?_map, Option.map_map]
    rfl
  rw [this, List.foldl_map]

theorem default_tuple (E : Env) (ts : Tys) (o : Nat) (m : Mem) :
    some (writeDefault E (.tuple ts) o m) = runAll ((fieldSteps E ts o).map fun g m => some (g m)) (zero m o (size (.tuple ts))) := by
  rw [runAll_some, writeDefault, fold_eq]

theorem default_struct (E : Env) (names : List Nat) (ts : Tys) (o : Nat) (m : Mem) :
    some (writeDefault E (.struct names ts) o m) =
      runAll ((fieldSteps E ts o).map fun g m => some (g m)) (zero m o (size (.struct names ts))) := by
  rw [runAll_some, writeDefault, fold_eq]

theorem fieldSteps_get {E : Env} {ts : Tys} {o i : Nat} {f : Mem → Option Mem}
    (h : ((fieldSteps E ts o).map fun g m => some (g m))[i]? = some f) :
    ∃ t a, ts.toList[i]? = some t ∧ offset ts i = some a ∧ f = fun m => some (writeDefault E t (o + a) m) := by
  simp only [fieldSteps, List.getElem?_map, List.getElem?_mapIdx] at h
  cases ht : ts.toList[i]? with
  | none => rw [ht] at h; simp at h
  | some t =>
    have hi : i < ts.toList.length := (List.getElem?_eq_some_iff.1 ht).1
    obtain ⟨a, ha⟩ := offset_some hi
    rw [ht] at h
    simp only [Option.map_some, Option.some.injEq, ha, Option.getD_some] at h
    exact ⟨t, a, rfl, ha, h.symm⟩

theorem fields_frame {E : Env} {ts : Tys} {o x : Nat} {m m' : Mem} (names : List Nat) (hx : x < o ∨ o + size (.struct names ts) ≤ x)
    (hf : ∀ t, t ∈ ts.toList → ∀ o m, (x < o ∨ o + size t ≤ x) → writeDefault E t o m x = m x)
    (h : runAll ((fieldSteps E ts o).map fun g m => some (g m)) m = some m') : m' x = m x := by
  refine runAll_frame _ _ _ x h fun f hf' m1 m2 h12 => ?_
  obtain ⟨i, hi⟩ := List.getElem?_of_mem hf'
  obtain ⟨t, a, ht, ha, rfl⟩ := fieldSteps_get hi
  simp only [Option.some.injEq] at h12
  subst h12
  have := field_in names ht ha
  exact hf t (List.mem_of_getElem? ht) _ _ (by omega)

mutual
/-- A default value is written within its place. -/
theorem default_frame (E : Env) : (t : Ty) → ∀ (o : Nat) (m : Mem) (x : Nat), (x < o ∨ o + size t ≤ x) → writeDefault E t o m x = m x
  | .bool, o, m, x, h => by rw [writeDefault]; exact zero_out h
  | .int _, o, m, x, h => by rw [writeDefault]; exact zero_out h
  | .f32, o, m, x, h => by rw [writeDefault]; exact zero_out h
  | .f64, o, m, x, h => by rw [writeDefault]; exact zero_out h
  | .anyptr, o, m, x, h => by rw [writeDefault]; exact zero_out h
  | .ptr, o, m, x, h => by rw [writeDefault]; exact zero_out h
  | .nullable _, o, m, x, h => by rw [writeDefault]; exact zero_out h
  | .any, o, m, x, h => by rw [writeDefault]; exact zero_out h
  | .string, o, m, x, h => by
    rw [writeDefault]; rw [size_string] at *
    rw [putWord_out (by omega), putWord_out (by omega), zero_out h]
  | .vec e, o, m, x, h => by
    rw [writeDefault]; rw [size_vec] at *
    rw [putWord_out (by omega), putWord_out (by omega), zero_out h]
  | .map _ _, o, m, x, h => by
    rw [writeDefault]; rw [size_map] at *
    rw [putWord_out (by omega), putWord_out (by omega), zero_out h]
  | .set _, o, m, x, h => by
    rw [writeDefault]; rw [size_set] at *
    rw [putWord_out (by omega), zero_out h]
  | .arr e n, o, m, x, h => by
    have hd := (default_arr E e n o m).symm
    rw [runAll_frame _ _ _ x hd, zero_out h]
    intro f hf m1 m2 h12
    simp only [arrSteps, List.map_map, List.mem_map, List.mem_range, Function.comp] at hf
    obtain ⟨i, hi, rfl⟩ := hf
    simp only [Option.some.injEq] at h12
    subst h12
    have : (i + 1) * size e ≤ n * size e := Nat.mul_le_mul_right _ hi
    rw [Nat.add_mul, Nat.one_mul] at this
    rw [size_arr] at h
    exact default_frame E e _ _ x (by omega)
  | .tuple ts, o, m, x, h => by
    have hd := (default_tuple E ts o m).symm
    rw [fields_frame [] (by rw [size_tuple ts []] at h; exact h) (fun t ht o m hx => defaults_frame E ts t ht o m x hx) hd, zero_out h]
  | .struct names ts, o, m, x, h => by
    have hd := (default_struct E names ts o m).symm
    rw [fields_frame names h (fun t ht o m hx => defaults_frame E ts t ht o m x hx) hd, zero_out h]
theorem defaults_frame (E : Env) : (ts : Tys) → ∀ t, t ∈ ts.toList → ∀ (o : Nat) (m : Mem) (x : Nat), (x < o ∨ o + size t ≤ x) →
    writeDefault E t o m x = m x
  | .nil, t, h => by simp [Tys.toList] at h
  | .cons u rest, t, h => by
    intro o m x hx
    rw [Tys.toList, List.mem_cons] at h
    rcases h with e | h
    · rw [e] at hx ⊢; exact default_frame E u o m x hx
    · exact defaults_frame E rest t h o m x hx
end

/-! ### What memory holds depends on the place of the variable only -/

theorem hasInt_congr {m m' : Mem} {o : Nat} {k : Kind} {v : Int} (hm : ∀ x, o ≤ x → x < o + bytesOf k → m' x = m x) (h : HasInt m o k v) :
    HasInt m' o k v := by
  have := number_congr hm
  cases k <;> simp only [HasInt, signedNumber, bytesOf] at * <;> rw [this] <;> exact h

theorem words_congr {m m' : Mem} {o n : Nat} {ws : List (BitVec 64)} (hn : 8 * ws.length ≤ n) (hm : ∀ x, o ≤ x → x < o + n → m' x = m x)
    (h : Words m o ws) : Words m' o ws := by
  intro i w hi
  have := (List.getElem?_eq_some_iff.1 hi).1
  rw [number_congr fun x h1 h2 => hm x (by omega) (by omega)]
  exact h i w hi

theorem holds_congr {E : Env} {m m' : Mem} {t : Ty} {o : Nat} {v : Val} (h : Holds E m t o v) :
    (∀ x, o ≤ x → x < o + size t → m' x = m x) → Holds E m' t o v := by
  induction h with
  | bool h => intro hm; exact .bool (by rw [hm _ (Nat.le_refl _) (by rw [size_bool]; omega)]; exact h)
  | int h => intro hm; exact .int (hasInt_congr (by rw [← size_int]; exact hm) h)
  | anyptr h => intro hm; exact .anyptr (hasInt_congr (by rw [size_anyptr] at hm; exact hm) h)
  | f32 h => intro hm; exact .f32 (by rw [number_congr (by rw [size_f32] at hm; exact hm)]; exact h)
  | f64 h => intro hm; exact .f64 (by rw [number_congr (by rw [size_f64] at hm; exact hm)]; exact h)
  | f32zero h => intro hm; exact .f32zero (by rw [number_congr (by rw [size_f32] at hm; exact hm)]; exact h)
  | f64zero h => intro hm; exact .f64zero (by rw [number_congr (by rw [size_f64] at hm; exact hm)]; exact h)
  | ptr h => intro hm; exact .ptr (by rw [number_congr (by rw [size_ptr] at hm; exact hm)]; exact h)
  | string h => intro hm; exact .string (words_congr (by rw [size_string]; simp) hm h)
  | vec h => intro hm; exact .vec (words_congr (by rw [size_vec]; simp) hm h)
  | map h => intro hm; exact .map (words_congr (by rw [size_map]; simp) hm h)
  | set h => intro hm; exact .set (words_congr (by rw [size_set]; simp) hm h)
  | nullable h => intro hm; exact .nullable (words_congr (by have := size_nullable; simp; apply this) hm h)
  | any h => intro hm; exact .any (words_congr (by rw [size_any]; simp) hm h)
  | @arr o e n vs hl _ ih =>
    intro hm
    refine .arr hl fun i v hv => ih i v hv fun x h1 h2 => hm x (by omega) ?_
    have hi := (List.getElem?_eq_some_iff.1 hv).1
    have : (i + 1) * size e ≤ n * size e := Nat.mul_le_mul_right _ (by omega)
    rw [Nat.add_mul, Nat.one_mul] at this
    rw [size_arr]; omega
  | @tuple o ts vs hl _ ih =>
    intro hm
    refine .tuple hl fun i t a v ht ha hv => ih i t a v ht ha hv fun x h1 h2 => hm x (by omega) ?_
    have := field_in [] ht ha
    rw [size_tuple ts []]; omega
  | @struct o names ts vs hl _ ih =>
    intro hm
    refine .struct hl fun i t a v ht ha hv => ih i t a v ht ha hv fun x h1 h2 => hm x (by omega) ?_
    have := field_in names ht ha
    omega

end Nature.Global
