import Verif.Map.SetLemmas
import Verif.Map.KeyLemmas
/-!
C16 (maps), C17 (no abort), C18 (keys), C19 (sets), C40 (iteration).
`specRun`, `setSpecRun` (Spec.lean, Set.lean) are the mathematical finite map and set.
-/
namespace Nature.Map
open Nature

section
variable {K V I : Type} [DecidableEq K] [DecidableEq I]

/-- C16: for every history, every hash function (hence every collision pattern) and every key type whose values have
distinct images, the runtime map answers as the finite map, except that it may abort the process at some operation.
Missing: that it does not abort (C17, false), and maps of 2^31 or more keys (`Bounded`: the rehash loop counter is an `int`). -/
theorem C16_history_partial (o : KeyOps K I) (zk : K) (zv : V) (hinj : ∀ a b, o.img a = o.img b → a = b)
    (start : Map K V) (hs : start = new zk zv ∨ start = zeroed) (ops : List (Op K V)) (hb : Bounded [] ops) :
    implRun o zk zv start ops = specRun [] ops ∨
    ∃ n, n < ops.length ∧ implRun o zk zv start ops = (specRun [] ops).take n ++ [.abort] := by
  have hg : Good o start 0 [] := by
    rcases hs with h | h
    · subst h; exact good_new o zk zv
    · exact Or.inl ⟨h, rfl⟩
  exact run_refines hinj zk zv ops hg hb

/-- Deletions so far stay below 4 or below a third of the live keys, at every point of the history. -/
def FewDeletes : List (K × V) → Nat → List (Op K V) → Prop
  | _, _, [] => True
  | s, t, op :: ops => (t < 4 ∨ 3 * t < s.length) ∧ FewDeletes (specStep s op).1 (t + dels op) ops

theorem few_no_abort {o : KeyOps K I} (hinj : ∀ a b, o.img a = o.img b → a = b) (zk : K) (zv : V) (ops : List (Op K V))
    {m : Map K V} {t : Nat} {s : List (K × V)} (h : Good o m t s) (hb : Bounded s ops) (ht : FewDeletes s t ops) :
    implRun o zk zv m ops = specRun s ops := by
  induction ops generalizing m t s with
  | nil => rfl
  | cons op ops ih =>
    obtain ⟨h0, ht⟩ := ht
    rcases step_refines hinj zk zv h op hb.1 with ⟨m', e, hg⟩ | ⟨_, h1, h2, h3⟩
    · simp only [implRun, e, specRun, ih hg hb.2 ht]
    · rcases h with ⟨hz, _⟩ | ⟨_, ha⟩
      · subst hz; simp [zeroed] at h1
      · have := ha.len; omega

/-- C17, positive part: with few deletions the map never aborts and is exactly the finite map.  Missing: histories with
more deletions, which can abort (below). -/
theorem C17_no_abort_partial (o : KeyOps K I) (zk : K) (zv : V) (hinj : ∀ a b, o.img a = o.img b → a = b)
    (start : Map K V) (hs : start = new zk zv ∨ start = zeroed) (ops : List (Op K V)) (hb : Bounded [] ops)
    (hd : FewDeletes [] 0 ops) : implRun o zk zv start ops = specRun [] ops := by
  have hg : Good o start 0 [] := by
    rcases hs with h | h
    · subst h; exact good_new o zk zv
    · exact Or.inl ⟨h, rfl⟩
  exact few_no_abort hinj zk zv ops hg hb hd

/-- C40: iterating an unmodified map, after any history, yields each live key exactly once with its value. -/
theorem C40_iterate (o : KeyOps K I) (zk : K) (zv : V) (hinj : ∀ a b, o.img a = o.img b → a = b)
    (start : Map K V) (hs : start = new zk zv ∨ start = zeroed) (ops : List (Op K V)) (hb : Bounded [] ops)
    (m : Map K V) (he : implState o zk zv start ops = .ok m) (hl : (specState [] ops).length < 2147483648) (fuel : Nat)
    (hf : (specState [] ops).length < fuel) :
    ∃ l, iterate m fuel (-1) = .ok l ∧ l.Perm (specState [] ops) := by
  have hg : Good o start 0 [] := by
    rcases hs with h | h
    · subst h; exact good_new o zk zv
    · exact Or.inl ⟨h, rfl⟩
  obtain ⟨t, hg'⟩ := state_refines hinj zk zv ops hg hb he
  generalize specState [] ops = s at *
  rcases hg' with ⟨e1, e2⟩ | ⟨hi, ha⟩
  · subst e1 e2
    obtain ⟨f, rfl⟩ : ∃ f, fuel = f + 1 := ⟨fuel - 1, by simp at hf; omega⟩
    exact ⟨[], by simp [iterate, nextKey, zeroed], List.Perm.refl _⟩
  · have hlen := ha.len
    have := iterate_spec hi (by omega) m.len 0 (by omega) fuel (by omega)
    refine ⟨entriesFrom m m.len 0, by simpa using this, ?_⟩
    have n1 := entriesFrom_nodup hi m.len 0 (by omega)
    have n2 := ha.nodup
    have toN : ∀ l : List (K × V), (l.map Prod.fst).Nodup → l.Nodup := by
      intro l h
      rw [List.nodup_iff_pairwise_ne, List.pairwise_map] at h
      rw [List.nodup_iff_pairwise_ne]
      exact h.imp fun hne e => hne (by rw [e])
    rw [List.perm_ext_iff_of_nodup (toN _ n1) (toN _ n2)]
    rintro ⟨k, v⟩
    rw [entriesFrom_mem hi m.len 0 (by omega), ha.mem]
    constructor
    · rintro ⟨j, _, h⟩; exact ⟨j, h⟩
    · rintro ⟨j, h⟩; exact ⟨j, by omega, h⟩

/-- C19, positive part: for every history of additions and membership tests, and every hash function, the runtime set
answers as the finite set.  Missing: histories with deletions (false, below). -/
theorem C19_history_partial (o : KeyOps K I) (zk : K) (hinj : ∀ a b, o.img a = o.img b → a = b)
    (start : HSet K) (hs : start = setNew zk ∨ start = setZeroed) (ops : List (SetOp K)) (hn : NoDelete ops)
    (hb : ops.length < 2147483648) : setImplRun o zk start ops = setSpecRun [] ops := by
  have hg : SetGood o start [] := by
    rcases hs with h | h
    · subst h; exact setGood_new o zk
    · exact Or.inl ⟨h, rfl⟩
  refine setRun_refines hinj zk ops hg hn ?_
  rcases hs with h | h <;> subst h <;> simpa [setNew, setZeroed] using hb

end

/-! ### Real keys -/

/-- C18, positive part 1: keys stored directly in at most 8 bytes (integers, floats, booleans, pointers) have distinct images. -/
theorem C18_direct_keys_partial (size : Nat) (hs : size ≤ 8) (a b : List Byte) (ha : a.length = size) (hb : b.length = size)
    (hne : a ≠ b) : (keyOps (.direct size)).img a ≠ (keyOps (.direct size)).img b := by
  intro h
  simp only [keyOps, valueToStr, if_pos hs, Option.some.injEq] at h
  have lim : ∀ x : List Byte, x.length = size → leNat x < 18446744073709551616 := by
    intro x hx
    have h1 := leNat_lt x
    have h2 : (256 : Nat) ^ x.length ≤ 256 ^ 8 := Nat.pow_le_pow_right (by omega) (by omega)
    omega
  have := itoa_inj (toI64_small (lim a ha)) (toI64_small (lim b hb)) h
  exact hne (leNat_inj (by rw [ha, hb]) (toI64_inj (lim a ha) (lim b hb) this))

/-- C18, positive part 2: strings without NUL bytes have distinct images.  Missing: strings with NUL bytes and keys
stored indirectly (structs, arrays), see the counterexamples. -/
theorem C18_strings_partial (a b : List Byte) (ha : ∀ x ∈ a, x ≠ 0#8) (hb : ∀ x ∈ b, x ≠ 0#8) (hne : a ≠ b) :
    (keyOps .string).img a ≠ (keyOps .string).img b := by
  intro h
  simp only [keyOps, valueToStr, Option.some.injEq, cstr_id ha, cstr_id hb] at h
  exact hne h

/-- C18 is false for strings with NUL bytes: after `m["a\0x"] = 1`, reading `m["a\0y"]` finds 1. -/
theorem C18_nul_string_counterexample :
    implRun (keyOps .string) [] (0 : Nat) (new [] 0) [.assign [97#8, 0#8, 120#8] 1, .access [97#8, 0#8, 121#8]] = [.unit, .value 1] ∧
    specRun ([] : List (List Byte × Nat)) [.assign [97#8, 0#8, 120#8] 1, .access [97#8, 0#8, 121#8]] = [.unit, .notFound] := by
  decide +kernel

/-- C18 is false for struct keys: `{1, 2}` and `{1, 3}`, two 32-bit fields each, are the same key. -/
theorem C18_struct_key_counterexample :
    implRun (keyOps (.ind 8)) [] (0 : Nat) (new [] 0) [.assign [1#8, 0#8, 0#8, 0#8, 2#8, 0#8, 0#8, 0#8] 5, .access [1#8, 0#8, 0#8, 0#8, 3#8, 0#8, 0#8, 0#8]] = [.unit, .value 5] := by
  decide +kernel

/-- An 8-byte key. -/
def ikey (n : Nat) : List Byte := [BitVec.ofNat 8 n, 0#8, 0#8, 0#8, 0#8, 0#8, 0#8, 0#8]

example : ikey 3 ≠ ikey 4 ∧ (ikey 3).length = 8 := by decide

/-- C16 with the code's own images and hash, for 64-bit integer keys. -/
theorem C16_int_keys_partial (V : Type) (zv : V) (ops : List (Op {b : List Byte // b.length = 8} V)) (hb : Bounded [] ops) :
    let o : KeyOps {b : List Byte // b.length = 8} (Option (List Byte)) := ⟨fun k => valueToStr (.direct 8) k.1, (keyOps (.direct 8)).hash⟩
    let zk : {b : List Byte // b.length = 8} := ⟨List.replicate 8 0#8, rfl⟩
    implRun o zk zv (new zk zv) ops = specRun [] ops ∨
    ∃ n, n < ops.length ∧ implRun o zk zv (new zk zv) ops = (specRun [] ops).take n ++ [.abort] := by
  intro o zk
  refine C16_history_partial o zk zv ?_ _ (Or.inl rfl) ops hb
  intro a b h
  by_cases e : a.1 = b.1
  · exact Subtype.ext e
  · exact absurd h (C18_direct_keys_partial 8 (by omega) a.1 b.1 a.2 b.2 e)

/-- C16 for strings without NUL bytes, with the code's own images and hash. -/
theorem C16_string_keys_partial (V : Type) (zv : V) (ops : List (Op {b : List Byte // ∀ x ∈ b, x ≠ 0#8} V)) (hb : Bounded [] ops) :
    let o : KeyOps {b : List Byte // ∀ x ∈ b, x ≠ 0#8} (Option (List Byte)) := ⟨fun k => valueToStr .string k.1, (keyOps .string).hash⟩
    let zk : {b : List Byte // ∀ x ∈ b, x ≠ 0#8} := ⟨[], by simp⟩
    implRun o zk zv (new zk zv) ops = specRun [] ops ∨
    ∃ n, n < ops.length ∧ implRun o zk zv (new zk zv) ops = (specRun [] ops).take n ++ [.abort] := by
  intro o zk
  refine C16_history_partial o zk zv ?_ _ (Or.inl rfl) ops hb
  intro a b h
  by_cases e : a.1 = b.1
  · exact Subtype.ext e
  · exact absurd h (C18_strings_partial a.1 b.1 a.2 b.2 e)

/-- Insert and delete a key, for each of these keys. -/
def churn : List Nat → List (Op (List Byte) Nat)
  | [] => []
  | n :: ns => .assign (ikey n) 1 :: .delete (ikey n) :: churn ns

/-- Integers whose images hash to the 16 slots of a new map. -/
def slotKeys : List Nat := [5, 17, 3, 4, 9, 2, 7, 8, 14, 6, 12, 15, 1, 13, 16, 0]

/-- C17 is false: inserting and deleting 16 suitable integers leaves the map empty and full of tombstones; the next
lookup aborts the process, and so does the next insertion. -/
theorem C17_tombstones_counterexample :
    (implRun (keyOps (.direct 8)) (ikey 0) 0 (new (ikey 0) 0) (churn slotKeys ++ [.len, .contains (ikey 0)])).drop 32 = [.nat 0, .abort] ∧
    (specRun [] (churn slotKeys ++ [.len, .contains (ikey 0)])).drop 32 = [.nat 0, .bool false] ∧
    (implRun (keyOps (.direct 8)) (ikey 0) 0 (new (ikey 0) 0) (churn slotKeys ++ [.assign (ikey 77) 1])).drop 32 = [.abort] := by
  decide +kernel

/-- C19 is false: add 1, add 2, delete 1, add 3; then 2 is gone although nobody deleted it. -/
theorem C19_delete_counterexample :
    setImplRun (keyOps (.direct 8)) (ikey 0) (setNew (ikey 0)) [.add (ikey 1), .add (ikey 2), .delete (ikey 1), .add (ikey 3), .contains (ikey 2)] =
      [.bool true, .bool true, .unit, .bool true, .bool false] ∧
    setSpecRun [] [.add (ikey 1), .add (ikey 2), .delete (ikey 1), .add (ikey 3), .contains (ikey 2)] =
      [.bool true, .bool true, .unit, .bool true, .bool true] := by
  decide +kernel

/-- C19 is false: deleting an absent element makes the next addition overwrite a member. -/
theorem C19_delete_absent_counterexample :
    setImplRun (keyOps (.direct 8)) (ikey 0) (setNew (ikey 0)) [.add (ikey 1), .delete (ikey 9), .contains (ikey 1), .add (ikey 2), .contains (ikey 1)] =
      [.bool true, .unit, .bool true, .bool true, .bool false] ∧
    setImplRun (keyOps (.direct 8)) (ikey 0) (setNew (ikey 0)) [.delete (ikey 9), .add (ikey 2)] = [.unit, .ub] := by
  decide +kernel

/-- C19: what a deletion does guarantee: after any history without deletions, deleting `k` makes `k` a non-member. -/
theorem C19_delete_removes_partial {K I : Type} [DecidableEq K] [DecidableEq I] (o : KeyOps K I) (zk : K)
    (hinj : ∀ a b, o.img a = o.img b → a = b) (ops : List (SetOp K)) (hn : NoDelete ops) (hb : ops.length < 2147483648) (k : K) :
    setImplRun o zk (setNew zk) (ops ++ [.delete k, .contains k]) = setSpecRun [] ops ++ [.unit, .bool false] :=
  setRun_delete hinj zk k ops (setGood_new o zk) hn (by simpa [setNew] using hb)

/-! ### Non-vacuity -/

/-- Identity keys with every key colliding. -/
def collide : KeyOps Nat Nat := ⟨id, fun _ => 0⟩

/-- A history with overwriting, deletion between colliding keys, reinsertion and growth. -/
def demoOps : List (Op Nat Nat) :=
  (List.range 13).map (fun i => .assign i (10 * i)) ++ [.delete 3, .access 12, .access 3, .assign 3 7, .assign 4 8, .access 3, .access 4, .delete 0, .contains 0, .len]

example : Bounded [] demoOps := by simp [demoOps, Bounded, specStep, List.range, List.range.loop]
example : FewDeletes [] 0 demoOps := by simp [demoOps, FewDeletes, specStep, List.range, List.range.loop, dels]
example : ∀ a b, collide.img a = collide.img b → a = b := fun _ _ h => h
example : (specRun [] demoOps).drop 13 = [.unit, .value 120, .notFound, .unit, .unit, .value 7, .value 8, .unit, .bool false, .nat 12] := by decide
example : implRun collide 0 0 (new 0 0) demoOps = specRun [] demoOps :=
  C17_no_abort_partial collide 0 0 (fun _ _ h => h) _ (Or.inl rfl) demoOps (by simp [demoOps, Bounded, specStep, List.range, List.range.loop])
    (by simp [demoOps, FewDeletes, specStep, List.range, List.range.loop, dels])
example : ∃ m, implState collide 0 0 (new 0 0) demoOps = .ok m ∧ m.len = 12 ∧ m.cap = 32 := ⟨_, rfl, rfl, rfl⟩
example : (specState [] demoOps).length = 12 := by decide
example : NoDelete ([.add 1, .add 1, .contains 2] : List (SetOp Nat)) := trivial
example : setSpecRun [] ([.add 1, .add 1, .contains 2, .contains 1] : List (SetOp Nat)) = [.bool true, .bool false, .bool false, .bool true] := by decide
example : Inv collide (mNew 0) 0 := inv_empty collide 100 (by omega) (by omega) 0 ()

end Nature.Map
