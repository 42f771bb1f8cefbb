import Verif.Types.TagTable
import Verif.Types.Sound
/-
C91: a value kept in a union, an `any`, an interface or a tagged union is recognised as what it is.

`x is t` answers yes exactly if the value put into `x` has type `t`, and `x as t` gives exactly
that value, or reports an error.  `TagSpec.lean` says which types and names are meant, `Same`
(Spec.lean) when two types are one.
-/
namespace Nature.Types

/-- The types of a program.  `P` holds for all types that occur in it. -/
structure Program (p : Decls) (P : Ty → Prop) : Prop where
  parts : ∀ t, P t → ∀ u, Part u t → P u
  proper : ∀ t, P t → Ofs p t

/-- The hash function gives different numbers for the texts of the program's types. -/
def NoClash (H : List Char → Nat) (P : Ty → Prop) : Prop :=
  ∀ t s, P t → P s → H (text H t) = H (text H s) → text H t = text H s

/-- Types of a program with the same hash are equal. -/
theorem C91_hash_partial {H : List Char → Nat} {p : Decls} {P : Ty → Prop} (hp : Program p P)
    (hc : NoClash H P) {t s : Ty} (ht : P t) (hs : P s) (h : typeHash H t = typeHash H s) : t = s :=
  eq_of_hash H p P hp.parts hp.proper hc _ t s (Nat.le_refl _) ht hs h

theorem hash_iff {H : List Char → Nat} {p : Decls} {P : Ty → Prop} (hp : Program p P)
    (hc : NoClash H P) {t s : Ty} (ht : P t) (hs : P s) (hu : t.unionless = true) :
    typeHash H s = typeHash H t ↔ Same t s := by
  constructor
  · intro h
    rw [C91_hash_partial hp hc ht hs h.symm]
    exact same_refl s
  · intro h
    unfold typeHash
    rw [text_same H h hu]

section
variable {H : List Char → Nat} {p : Decls} {P : Ty → Prop} {size : Ty → Nat}
  {storage : Ty → Storage} {ts : List Ty} {s t : Ty}

/-- The entry found for a type of the program is its own. -/
theorem find_own (hp : Program p P) (hc : NoClash H P) (hts : ∀ u ∈ ts, P u) (hs : s ∈ ts) :
    findRtype (table H size storage ts) (typeHash H s) =
      some { hash := typeHash H s, size := size s, storage := storage s } := by
  obtain ⟨r, h1, h2, u, hu, h3, h4, h5⟩ := find_table H size storage hs
  have : u = s := C91_hash_partial hp hc (hts u hu) (hts s hs) (by rw [← h3, h2])
  subst this
  obtain ⟨a, b, c⟩ := r
  simp only at h3 h4 h5
  subst h3 h4 h5
  exact h1

/-! ### unions -/

/-- A value of type `s` put into a union is recognised, and got back, exactly as an `s`.

`ts` are the types of the program, which are entered in its table of types; `old` is what was in
the union before, `out` what was in the place the value is read into.

Missing: types with unions inside, for which `is` goes by the order in which the alternatives are
written (`C91_order_counterexample`), functions that can fail or are variadic
(`C91_errable_counterexample`), and programs with two types whose hashes are equal
(`C91_clash_counterexample`). -/
theorem C91_union_partial (hp : Program p P) (hc : NoClash H P) (hts : ∀ u ∈ ts, P u) (hs : s ∈ ts)
    (ht : t ∈ ts) (hu : t.unionless = true) (old v out : Bytes) :
    ∃ c, unionCast (table H size storage ts) old (typeHash H s) v = some c ∧
      (cellIs c.rtype (typeHash H t) = true ↔ Same t s) ∧
      (Same t s → ∃ b, unionAssert (table H size storage ts) c (typeHash H t) out = .got b ∧
        ∀ i < size s, b i = v i) ∧
      (¬ Same t s → unionAssert (table H size storage ts) c (typeHash H t) out = .thrown) := by
  have hiff := hash_iff hp hc (hts t ht) (hts s hs) hu
  refine ⟨⟨⟨typeHash H s, size s, storage s⟩, copy (size s) v (copy 8 (fun _ => 0) old)⟩,
    by simp only [unionCast, find_own hp hc hts hs], ?_, ?_, ?_⟩
  · simpa [cellIs] using hiff
  · intro h
    have he := hiff.2 h
    simp only [unionAssert, ← he, find_own hp hc hts hs]
    simp only [bne_self_eq_false, Bool.false_eq_true, if_false]
    exact ⟨_, rfl, fun i hi => by simp [copy, hi]⟩
  · intro h
    have : typeHash H s ≠ typeHash H t := fun he => h (hiff.1 he)
    simp [unionAssert, this]

/-- With unions inside as well, what is recognised as a `t` is a `t`. -/
theorem C91_union_sound_partial (hp : Program p P) (hc : NoClash H P) (hts : ∀ u ∈ ts, P u)
    (hs : s ∈ ts) (ht : t ∈ ts) (old v : Bytes) (c : UnionCell)
    (h : unionCast (table H size storage ts) old (typeHash H s) v = some c)
    (his : cellIs c.rtype (typeHash H t) = true) : Same t s := by
  simp only [unionCast, find_own hp hc hts hs, Option.some.injEq] at h
  subst h
  have he : typeHash H s = typeHash H t := by simpa [cellIs] using his
  rw [C91_hash_partial hp hc (hts t ht) (hts s hs) he.symm]
  exact same_refl s

/-- Putting a value into a union does not write beyond the union, if its type has the size of an
alternative and not all alternatives are empty (`C91_empty_counterexample`). -/
theorem C91_room_partial (sizes : List Nat) (r : Rtype) (hr : r.size ∈ sizes)
    (hpos : ∃ n ∈ sizes, 0 < n) : unionWrites r ≤ payload sizes := by
  have hmax : ∀ (l : List Nat) (m : Nat), m ≤ l.foldl (fun m s => if s > m then s else m) m ∧
      ∀ n ∈ l, n ≤ l.foldl (fun m s => if s > m then s else m) m := by
    intro l
    induction l with
    | nil => intro m; simp
    | cons a l ih =>
      intro m
      simp only [List.foldl_cons]
      obtain ⟨h1, h2⟩ := ih (if a > m then a else m)
      refine ⟨Nat.le_trans ?_ h1, ?_⟩
      · split <;> omega
      · intro n hn
        simp only [List.mem_cons] at hn
        rcases hn with rfl | hn
        · refine Nat.le_trans ?_ h1
          split <;> omega
        · exact h2 n hn
  have hlen : sizes.length > 0 := List.length_pos_of_mem hr
  obtain ⟨n, hn, hn0⟩ := hpos
  have h1 := (hmax sizes 0).2 n hn
  have h2 := (hmax sizes 0).2 r.size hr
  unfold unionWrites payload
  simp only [hlen, if_true]
  split <;> omega

/-! ### `any` -/

/-- A value of type `s` put into an `any` in an ordinary function is recognised, and got back,
exactly as an `s`.  `v` is the object that holds the value, `fresh` a new object, and `m'` the
memory at any later time at which the new object has not been written to; whether `v` has been
does not matter.

Missing: as for unions; and functions declared with `fx` (`C91_fx_counterexample`). -/
theorem C91_any_partial (hp : Program p P) (hc : NoClash H P) (hts : ∀ u ∈ ts, P u) (hs : s ∈ ts)
    (ht : t ∈ ts) (hu : t.unionless = true) (m : Mem) (fresh v : Nat) (out : Bytes) :
    ∃ c m1, anyCast (table H size storage ts) false fresh (typeHash H s) v m = some (c, m1) ∧
      (cellIs c.rtype (typeHash H t) = true ↔ Same t s) ∧
      (∀ x, x ≠ fresh → m1 x = m x) ∧
      ∀ m', m' fresh = m1 fresh →
        (Same t s → ∃ b, anyAssert (table H size storage ts) c (typeHash H t) m' out = .got b ∧
          ∀ i < size s, b i = m v i) ∧
        (¬ Same t s → anyAssert (table H size storage ts) c (typeHash H t) m' out = .thrown) := by
  have hiff := hash_iff hp hc (hts t ht) (hts s hs) hu
  have hf := find_own (size := size) (storage := storage) hp hc hts hs
  by_cases hst : storage s = .ind
  · refine ⟨{ rtype := ⟨typeHash H s, size s, storage s⟩, value := .at fresh },
      m.set fresh (copy (size s) (m v) (m fresh)),
      by simp [anyCast, hf, hst], ?_, ?_, ?_⟩
    · simpa [cellIs] using hiff
    · intro x hx; simp [Mem.set, hx]
    · intro m' hm'
      refine ⟨?_, ?_⟩
      · intro h
        have he := hiff.2 h
        simp only [anyAssert, ← he, hf, hst]
        simp only [bne_self_eq_false, Bool.false_eq_true, if_false]
        exact ⟨_, rfl, fun i hi => by simp [copy, hi, hm', Mem.set]⟩
      · intro h
        have : typeHash H s ≠ typeHash H t := fun he => h (hiff.1 he)
        simp [anyAssert, this]
  · refine ⟨{ rtype := ⟨typeHash H s, size s, storage s⟩,
              value := .inline (copy (size s) (m v) (fun _ => 0)) }, m,
      by simp [anyCast, hf, hst], ?_, ?_, ?_⟩
    · simpa [cellIs] using hiff
    · intro x hx; rfl
    · intro m' hm'
      refine ⟨?_, ?_⟩
      · intro h
        have he := hiff.2 h
        simp only [anyAssert, ← he, hf]
        simp only [bne_self_eq_false, Bool.false_eq_true, if_false]
        cases hk : storage s with
        | ind => exact absurd hk hst
        | ptr => exact ⟨_, rfl, fun i hi => by simp [copy, hi]⟩
        | dir => exact ⟨_, rfl, fun i hi => by simp [copy, hi]⟩
      · intro h
        have : typeHash H s ≠ typeHash H t := fun he => h (hiff.1 he)
        simp [anyAssert, this]

/-- A value that goes through a union into an `any` is recognised, and got back, as what it was. -/
theorem C91_union_any_partial (hp : Program p P) (hc : NoClash H P) (hts : ∀ u ∈ ts, P u)
    (hs : s ∈ ts) (ht : t ∈ ts) (hu : t.unionless = true) (old val out : Bytes) (c : UnionCell)
    (hcast : unionCast (table H size storage ts) old (typeHash H s) val = some c)
    (m : Mem) (fresh v : Nat) (hv : m v = c.value) :
    ∃ a m1, unionToAny (table H size storage ts) false fresh c.rtype v m = some (a, m1) ∧
      (cellIs a.rtype (typeHash H t) = true ↔ Same t s) ∧
      ∀ m', m' fresh = m1 fresh →
        (Same t s → ∃ b, anyAssert (table H size storage ts) a (typeHash H t) m' out = .got b ∧
          ∀ i < size s, b i = val i) ∧
        (¬ Same t s → anyAssert (table H size storage ts) a (typeHash H t) m' out = .thrown) := by
  simp only [unionCast, find_own hp hc hts hs, Option.some.injEq] at hcast
  obtain ⟨a, m1, h1, h2, _, h4⟩ :=
    C91_any_partial (size := size) (storage := storage) hp hc hts hs ht hu m fresh v out
  subst hcast
  refine ⟨a, m1, h1, h2, fun m' hm' => ?_⟩
  obtain ⟨h5, h6⟩ := h4 m' hm'
  refine ⟨fun h => ?_, h6⟩
  obtain ⟨b, hb, hbi⟩ := h5 h
  exact ⟨b, hb, fun i hi => by rw [hbi i hi, hv]; simp [copy, hi]⟩

/-! ### interfaces -/

/-- The same for a value that is put into an interface. -/
theorem C91_interface_partial (hp : Program p P) (hc : NoClash H P) (hts : ∀ u ∈ ts, P u)
    (hs : s ∈ ts) (ht : t ∈ ts) (hu : t.unionless = true) (m : Mem) (fresh v : Nat) (out : Bytes) :
    ∃ c m1, ifaceCast (table H size storage ts) fresh (typeHash H s) v m = some (c, m1) ∧
      (cellIs c.rtype (typeHash H t) = true ↔ Same t s) ∧
      (∀ x, x ≠ fresh → m1 x = m x) ∧
      ∀ m', m' fresh = m1 fresh →
        (Same t s → ∃ b, ifaceAssert (table H size storage ts) c (typeHash H t) m' out = .got b ∧
          ∀ i < size s, b i = m v i) ∧
        (¬ Same t s → ifaceAssert (table H size storage ts) c (typeHash H t) m' out = .thrown) := by
  have hiff := hash_iff hp hc (hts t ht) (hts s hs) hu
  have hf := find_own (size := size) (storage := storage) hp hc hts hs
  by_cases hst : storage s = .ptr
  · refine ⟨{ rtype := ⟨typeHash H s, size s, storage s⟩,
              value := .inline (copy (size s) (m v) (fun _ => 0)) }, m,
      by simp [ifaceCast, hf, hst], ?_, ?_, ?_⟩
    · simpa [cellIs] using hiff
    · intro x hx; rfl
    · intro m' hm'
      refine ⟨?_, ?_⟩
      · intro h
        have he := hiff.2 h
        simp only [ifaceAssert, ← he, hf, hst]
        simp only [bne_self_eq_false, Bool.false_eq_true, if_false]
        exact ⟨_, rfl, fun i hi => by simp [copy, hi]⟩
      · intro h
        have : typeHash H s ≠ typeHash H t := fun he => h (hiff.1 he)
        simp [ifaceAssert, this]
  · refine ⟨{ rtype := ⟨typeHash H s, size s, storage s⟩, value := .at fresh },
      m.set fresh (copy (size s) (m v) (m fresh)),
      by simp [ifaceCast, hf, hst], ?_, ?_, ?_⟩
    · simpa [cellIs] using hiff
    · intro x hx; simp [Mem.set, hx]
    · intro m' hm'
      refine ⟨?_, ?_⟩
      · intro h
        have he := hiff.2 h
        simp only [ifaceAssert, ← he, hf]
        simp only [bne_self_eq_false, Bool.false_eq_true, if_false]
        cases hk : storage s with
        | ptr => exact absurd hk hst
        | ind => exact ⟨_, rfl, fun i hi => by simp [copy, hi, hm', Mem.set]⟩
        | dir => exact ⟨_, rfl, fun i hi => by simp [copy, hi, hm', Mem.set]⟩
      · intro h
        have : typeHash H s ≠ typeHash H t := fun he => h (hiff.1 he)
        simp [ifaceAssert, this]

end

/-! ### tagged unions -/

/-- Tags are told apart, unless their hashes are equal (`C91_tag_counterexample`). -/
theorem C91_tag_partial (H : List Char → Nat) (tags : List String)
    (hc : ∀ a ∈ tags, ∀ b ∈ tags, H a.toList = H b.toList → a = b) (a b : String) (ha : a ∈ tags)
    (hb : b ∈ tags) : tagIs H (tagOf H a) b = true ↔ a = b := by
  unfold tagIs tagOf
  constructor
  · intro h
    exact (hc b hb a ha (by simpa using h)).symm
  · rintro rfl
    simp

/-! ### the theorems say something -/

namespace TagEx

def int : Ty := .prim .i64
def bool : Ty := .prim .bool
def str : Ty := .prim .string
/-- `type dog = struct { int age }` -/
def dog : Ty := .named "main.dog" [] (.struct ["age"] [int])
/-- `type box<t> = struct { t v }`, with a vector of dogs in it -/
def boxed : Ty := .named "main.box" [.vec dog] (.struct ["v"] [.vec dog])
/-- `fn(int):bool` -/
def pred : Ty := .fn {} bool [int]
/-- `struct { int a, string b }` -/
def pair : Ty := .struct ["a", "b"] [int, str]

/-- The types of a program. -/
def types : List Ty := [int, bool, str, dog, .vec dog, boxed, pred, pair, .map str (.vec dog)]

def decls : Decls :=
  { body := fun n a =>
      if n = "main.dog" then .struct ["age"] [int]
      else match a with
        | [t] => .struct ["v"] [t]
        | _ => .stop
    iface := fun _ => false }

theorem program : Program decls (· ∈ types) where
  parts := by
    intro t ht u hu
    simp only [types, List.mem_cons, List.not_mem_nil, or_false] at ht
    rcases ht with rfl | rfl | rfl | rfl | rfl | rfl | rfl | rfl | rfl <;> cases hu <;>
      (try simp_all [types])
    rename_i h
    rcases h with rfl | rfl <;> simp
  proper := by
    intro t ht
    simp only [types, List.mem_cons, List.not_mem_nil, or_false] at ht
    rcases ht with rfl | rfl | rfl | rfl | rfl | rfl | rfl | rfl | rfl
    case inr.inr.inr.inl => exact ⟨by decide +kernel, rfl, rfl⟩
    case inr.inr.inr.inr.inr.inl => exact ⟨by decide +kernel, rfl, rfl⟩
    case inr.inr.inr.inr.inr.inr.inl => exact ⟨rfl, rfl, rfl⟩
    case inr.inr.inr.inr.inr.inr.inr.inl => exact ⟨rfl, by decide +kernel⟩
    all_goals trivial

theorem noClash : NoClash fnv (· ∈ types) := by
  have h : ∀ t ∈ types, ∀ s ∈ types, fnv (text fnv t) = fnv (text fnv s) →
      text fnv t = text fnv s := by
    have : types.all (fun t => types.all fun s =>
        fnv (text fnv t) != fnv (text fnv s) || text fnv t == text fnv s) = true := by
      decide +kernel
    intro t ht s hs he
    rw [List.all_eq_true] at this
    have := this t ht
    rw [List.all_eq_true] at this
    have := this s hs
    simpa [he] using this
  exact fun t s ht hs => h t ht s hs

/-- A box with dogs in a union is a box with dogs, and no map. -/
example (old v out : Bytes) (size : Ty → Nat) (storage : Ty → Storage) :=
  C91_union_partial (size := size) (storage := storage) program noClash (ts := types)
    (fun _ h => h) (s := boxed) (t := boxed) (by simp [types]) (by simp [types]) rfl old v out

example (m : Mem) (out : Bytes) (size : Ty → Nat) (storage : Ty → Storage) :=
  C91_any_partial (size := size) (storage := storage) program noClash (ts := types)
    (fun _ h => h) (s := pair) (t := pred) (by simp [types]) (by simp [types]) rfl m 1 0 out

example : tagIs fnv (tagOf fnv "some") "none" = false := by decide +kernel

end TagEx

open TagEx

/-! ### where it fails -/

/-- Two names with one hash. -/
def patol : Ty := .named "main.patol" [] (.struct ["a"] [int])
def caseco : Ty := .named "main.caseco" [] (.struct ["a", "b", "c"] [int, int, int])

theorem same_named {n m : String} {a c : List Ty} {b d : Ty} (hb : b.lists = false)
    (h : Same (.named n a b) (.named m c d)) : n = m := by
  cases h with
  | named => rfl
  | openL _ _ h => rw [hb] at h; cases h
  | openR _ _ _ h => cases h
  | openB _ _ _ _ h => rw [hb] at h; cases h

/-- Types are told apart by 32 bits, so that some are not told apart: a `caseco` in a union is
recognised as a `patol`.  Only one of the two has its size in the table, here that of `patol`: of
the 24 bytes of a `caseco` only 8 go into the union, and what is got out of it, also as a `caseco`,
is not what was put in. -/
theorem C91_clash_counterexample (storage : Ty → Storage) :
    let size : Ty → Nat := fun t => match t with
      | .named "main.patol" _ _ => 8
      | .named "main.caseco" _ _ => 24
      | _ => 8
    let tbl := table fnv size storage [patol, caseco]
    let v : Bytes := fun _ => 1
    ∃ c b, unionCast tbl (fun _ => 0) (typeHash fnv caseco) v = some c ∧
      cellIs c.rtype (typeHash fnv patol) = true ∧ ¬ Same patol caseco ∧
      unionAssert tbl c (typeHash fnv caseco) (fun _ => 0) = .got b ∧ b 8 ≠ v 8 := by
  intro size tbl v
  have hh : typeHash fnv caseco = typeHash fnv patol := by decide +kernel
  have ht : tbl = [{ hash := typeHash fnv patol, size := 8, storage := storage patol }] := by
    simp only [tbl, table, List.foldl_cons, List.foldl_nil, register, hh]
    simp [size, patol]
  refine ⟨⟨⟨typeHash fnv patol, 8, storage patol⟩, copy 8 v (copy 8 (fun _ => 0) (fun _ => 0))⟩,
    copy 8 (copy 8 v (copy 8 (fun _ => 0) (fun _ => 0))) (fun _ => 0),
    by simp [unionCast, ht, findRtype, hh], ?_, ?_, ?_, ?_⟩
  · simp [cellIs]
  · exact fun h => absurd (same_named rfl h) (by decide)
  · simp [unionAssert, ht, findRtype, hh]
  · simp [copy, v]

/-- The same for the tags of one tagged union. -/
theorem C91_tag_counterexample : tagIs fnv (tagOf fnv "costarring") "liquid" = true := by
  decide +kernel

/-- The hash of a function does not say whether the function can fail, whatever the hash function:
a function that can fail is recognised as one that cannot, and called as such. -/
theorem C91_errable_counterexample (H : List Char → Nat) :
    typeHash H (.fn { errable := true } int []) = typeHash H (.fn {} int []) ∧
      ¬ Same (.fn {} int []) (.fn { errable := true } int []) := by
  refine ⟨rfl, ?_⟩
  intro h
  have : ∀ {f g : FnFlags}, Same (.fn f int []) (.fn g int []) → f = g := by
    intro f g h; cases h; rfl
  exact absurd (this h) (by decide)

/-- Nor whether it takes any number of arguments. -/
theorem C91_rest_counterexample (H : List Char → Nat) :
    typeHash H (.fn { rest := true } int [.vec int]) = typeHash H (.fn {} int [.vec int]) ∧
      ¬ Same (.fn {} int [.vec int]) (.fn { rest := true } int [.vec int]) := by
  refine ⟨rfl, ?_⟩
  intro h
  have : ∀ {f g : FnFlags}, Same (.fn f int [.vec int]) (.fn g int [.vec int]) → f = g := by
    intro f g h; cases h; rfl
  exact absurd (this h) (by decide)

/-- A vector of `bool|int` is accepted as the alternative `[int|bool]` of a union, and is the same
type, but is not recognised as it: the value is none of the alternatives of the union. -/
theorem C91_order_counterexample :
    let t : Ty := .vec (.union false [int, bool])
    let s : Ty := .vec (.union false [bool, int])
    Same t s ∧ accept (fun _ _ => false) (.union false [str, t]) s = true ∧
      (typeHash fnv s == typeHash fnv t) = false ∧ (typeHash fnv s == typeHash fnv str) = false := by
  refine ⟨?_, by decide +kernel, by decide +kernel, by decide +kernel⟩
  exact .vec (.union _ _
    (.cons (d := bool) (by simp) (.prim _) (.cons (d := int) (by simp) (.prim _) (.nil _)))
    (.cons (s := int) (by simp) (.prim _) (.cons (s := bool) (by simp) (.prim _) (.nil _))))

/-- A union of empty structs has no payload, but eight bytes of payload are written. -/
theorem C91_empty_counterexample (h : Nat) (k : Storage) :
    payload [0, 0] < unionWrites ⟨h, 0, k⟩ := by
  show 0 < unionWrites ⟨h, 0, k⟩
  simp [unionWrites]

/-- In a function declared with `fx` an `any` is no copy of the value: if the variable that was put
into it changes, so does what is got out of it. -/
theorem C91_fx_counterexample :
    let tbl := table fnv (fun _ => 8) (fun _ => .ind) [pair]
    let m : Mem := fun _ _ => 1
    ∃ c m1 b, anyCast tbl true 1 (typeHash fnv pair) 0 m = some (c, m1) ∧
      anyAssert tbl c (typeHash fnv pair) (m1.set 0 (fun _ => 2)) (fun _ => 0) = .got b ∧
      b 0 ≠ m 0 0 := by
  intro tbl m
  refine ⟨⟨⟨typeHash fnv pair, 8, .ind⟩, .at 0⟩, m, copy 8 (m.set 0 (fun _ => 2) 0) (fun _ => 0),
    by simp [anyCast, tbl, table, register, findRtype],
    by simp [anyAssert, tbl, table, register, findRtype], ?_⟩
  simp [copy, Mem.set, m]

end Nature.Types
