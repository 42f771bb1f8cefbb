import Verif.Types.TagLemmas
/-
What is found in the table of types.
-/
namespace Nature.Types

/-- The entry comes from one of the types. -/
def From (H : List Char → Nat) (size : Ty → Nat) (storage : Ty → Storage) (ts : List Ty)
    (r : Rtype) : Prop :=
  ∃ u ∈ ts, r.hash = typeHash H u ∧ r.size = size u ∧ r.storage = storage u

theorem register_from {H : List Char → Nat} {size : Ty → Nat} {storage : Ty → Storage}
    {tbl : List Rtype} {t : Ty} {ts : List Ty} (h : ∀ r ∈ tbl, From H size storage ts r)
    (ht : t ∈ ts) : ∀ r ∈ register H size storage tbl t, From H size storage ts r := by
  intro r hr
  unfold register at hr
  split at hr
  · exact h r hr
  · simp only [List.mem_append, List.mem_singleton] at hr
    rcases hr with hr | rfl
    · exact h r hr
    · exact ⟨t, ht, rfl, rfl, rfl⟩

theorem register_has {H : List Char → Nat} {size : Ty → Nat} {storage : Ty → Storage}
    {tbl : List Rtype} {t : Ty} : ∃ r ∈ register H size storage tbl t, r.hash = typeHash H t := by
  unfold register
  split
  · rename_i h
    rw [List.any_eq_true] at h
    obtain ⟨r, hr, he⟩ := h
    exact ⟨r, hr, by simpa using he⟩
  · exact ⟨⟨typeHash H t, size t, storage t⟩, by simp, rfl⟩

theorem register_keeps {H : List Char → Nat} {size : Ty → Nat} {storage : Ty → Storage}
    {tbl : List Rtype} {t : Ty} : ∀ r ∈ tbl, r ∈ register H size storage tbl t := by
  intro r hr
  unfold register
  split
  · exact hr
  · simp [hr]

theorem foldl_from {H : List Char → Nat} {size : Ty → Nat} {storage : Ty → Storage} {all : List Ty} :
    ∀ (ts : List Ty) (tbl : List Rtype), (∀ t ∈ ts, t ∈ all) →
      (∀ r ∈ tbl, From H size storage all r) →
      ∀ r ∈ ts.foldl (register H size storage) tbl, From H size storage all r
  | [], _, _, h => h
  | t :: ts, tbl, ha, h => by
    simp only [List.foldl_cons]
    exact foldl_from ts _ (fun x hx => ha x (by simp [hx])) (register_from h (ha t (by simp)))

theorem foldl_keeps {H : List Char → Nat} {size : Ty → Nat} {storage : Ty → Storage} :
    ∀ (ts : List Ty) (tbl : List Rtype), ∀ r ∈ tbl, r ∈ ts.foldl (register H size storage) tbl
  | [], _, r, h => h
  | t :: ts, tbl, r, h => by
    simp only [List.foldl_cons]
    exact foldl_keeps ts _ r (register_keeps r h)

theorem foldl_has {H : List Char → Nat} {size : Ty → Nat} {storage : Ty → Storage} {s : Ty} :
    ∀ (ts : List Ty) (tbl : List Rtype), s ∈ ts →
      ∃ r ∈ ts.foldl (register H size storage) tbl, r.hash = typeHash H s
  | t :: ts, tbl, h => by
    simp only [List.foldl_cons]
    simp only [List.mem_cons] at h
    rcases h with rfl | h
    · obtain ⟨r, hr, he⟩ := register_has (H := H) (size := size) (storage := storage)
        (tbl := tbl) (t := s)
      exact ⟨r, foldl_keeps ts _ r hr, he⟩
    · exact foldl_has ts _ h

/-- What is found for a type of the program is the entry of a type with the same hash. -/
theorem find_table (H : List Char → Nat) (size : Ty → Nat) (storage : Ty → Storage) {ts : List Ty}
    {s : Ty} (hs : s ∈ ts) :
    ∃ r, findRtype (table H size storage ts) (typeHash H s) = some r ∧ r.hash = typeHash H s ∧
      From H size storage ts r := by
  unfold table findRtype
  obtain ⟨r, hr, he⟩ := foldl_has (H := H) (size := size) (storage := storage) ts [] hs
  cases h : List.find? (fun r => r.hash == typeHash H s)
      (ts.foldl (register H size storage) []) with
  | none =>
    rw [List.find?_eq_none] at h
    exact absurd he (by simpa using h r hr)
  | some q =>
    refine ⟨q, rfl, by simpa using List.find?_some h, ?_⟩
    exact foldl_from ts [] (fun _ h => h) (by simp) q (List.mem_of_find?_eq_some h)

end Nature.Types
