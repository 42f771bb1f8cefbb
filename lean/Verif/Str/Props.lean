import Verif.Str.Lemmas
/-! C20 (string order and concatenation), C41 (conversion between bytes and strings). -/
namespace Nature.Str
open Nature

/-- C20: the six comparison operators are the lexicographic order, equality and their derivatives, for all byte strings
(NUL included), and none of them reads outside its operands. -/
theorem C20_operators (a b : List Byte) :
    (∃ r, lt a b = .ok r ∧ (r = true ↔ Before a b)) ∧
    (∃ r, gt a b = .ok r ∧ (r = true ↔ Before b a)) ∧
    (∃ r, le a b = .ok r ∧ (r = true ↔ (Before a b ∨ a = b))) ∧
    (∃ r, ge a b = .ok r ∧ (r = true ↔ (Before b a ∨ a = b))) ∧
    (∃ r, ee a b = .ok r ∧ (r = true ↔ a = b)) ∧
    (∃ r, ne a b = .ok r ∧ (r = true ↔ a ≠ b)) := by
  obtain ⟨c, hc, h⟩ := cmp_spec a b
  have hab := before_of_cmp h
  have hba := before_of_cmp (cmp3_swap h)
  have he := eq_of_cmp h
  refine ⟨?_, ?_, ?_, ?_, ?_, ?_⟩
  · unfold lt; rw [hc, Res.bind_ok]; exact ⟨_, rfl, by rw [hab]; simp⟩
  · unfold gt; rw [hc, Res.bind_ok]; exact ⟨_, rfl, by rw [hba]; simp⟩
  · unfold le; rw [hc, Res.bind_ok]; exact ⟨_, rfl, by rw [hab, he]; simp; omega⟩
  · unfold ge; rw [hc, Res.bind_ok]; exact ⟨_, rfl, by rw [hba, he]; simp; omega⟩
  · unfold ee
    by_cases hl : a.length = b.length
    · rw [if_pos hl]
      obtain ⟨c', hc', h'⟩ := memcmp_spec a.length a b (by omega)
      rw [hc', Res.bind_ok]
      exact ⟨_, rfl, by rw [eq_of_cmp h']; simp [hl]⟩
    · rw [if_neg hl]
      exact ⟨_, rfl, by simp; intro e; rw [e] at hl; exact hl rfl⟩
  · unfold ne
    by_cases hl : a.length = b.length
    · rw [if_neg (by simpa using hl)]
      obtain ⟨c', hc', h'⟩ := memcmp_spec a.length a b (by omega)
      rw [hc', Res.bind_ok]
      exact ⟨_, rfl, by have := eq_of_cmp h'; simp only [decide_eq_true_eq]; rw [ne_eq, ne_eq, this]; simp [hl]⟩
    · rw [if_pos hl]
      exact ⟨_, rfl, by simp; intro e; rw [e] at hl; exact hl rfl⟩

/-- C20: that order is a strict total order. -/
theorem C20_total_order (a b c : List Byte) :
    ¬ Before a a ∧ (Before a b → Before b c → Before a c) ∧ (Before a b ∨ a = b ∨ Before b a) := by
  refine ⟨before_irrefl a, before_trans, ?_⟩
  obtain ⟨c, _, h⟩ := cmp_spec a b
  rw [before_of_cmp h, before_of_cmp (cmp3_swap h), eq_of_cmp h]
  omega

/-- C20: concatenation yields the bytes of both, NUL-terminated, writing inside its buffer only. -/
theorem C20_concat (a b : List Byte) :
    ∃ h, concat a b = .ok h ∧ h.bytes = a ++ b ∧ h.length = (a ++ b).length ∧ h.data = a ++ b ++ [0#8] := by
  refine ⟨_, concat_spec a b, ?_, by simp, rfl⟩
  unfold Hdr.bytes
  simp only
  rw [← List.length_append, List.take_left' rfl]

example : Before [97#8] [97#8, 0#8] ∧ Before [97#8, 0#8] [97#8, 255#8] :=
  ⟨Or.inr ⟨0#8, [], rfl⟩, Or.inl ⟨[97#8], 0#8, 255#8, [], [], rfl, rfl, by decide⟩⟩
example : lt [97#8, 127#8] [97#8, 128#8] = .ok true := by decide

/-- C41: string to bytes is exact. -/
theorem C41_to_vec (h : Hdr) (hl : h.length ≤ h.data.length) : ∃ v, toVec h = .ok v ∧ v.bytes = h.bytes := by
  refine ⟨_, new_spec _, ?_⟩
  simp only [Hdr.bytes, List.length_take, Nat.min_eq_left hl]
  rw [List.take_left' (by simp [Nat.min_eq_left hl])]
example : (toVec ⟨[97#8, 0#8, 98#8, 0#8], 3⟩).bind (fun v => .ok v.bytes) = .ok [97#8, 0#8, 98#8] := by decide

/-- C41, positive part: any sequence of conversions of NUL-free byte vectors gives strings with exactly those bytes,
whatever follows the vectors in memory (as long as some NUL byte does).  Missing: vectors containing NUL bytes. -/
theorem C41_from_vec_partial (l : List (List Byte × List Byte)) (hl : ∀ e ∈ l, (∀ x ∈ e.1, x ≠ 0#8) ∧ 0#8 ∈ e.2) (p : Pool) (hp : PoolOk p) :
    convertAll p l = .ok (l.map Prod.fst) := by
  induction l generalizing p with
  | nil => rfl
  | cons e l ih =>
    obtain ⟨raw, beyond⟩ := e
    have h1 := hl _ List.mem_cons_self
    obtain ⟨h, p', e1, e2, e3⟩ := newWithPool_spec hp raw beyond h1.1 h1.2
    unfold convertAll
    rw [e1, Res.bind_ok, ih (fun e he => hl e (List.mem_cons_of_mem _ he)) p' e3, Res.bind_ok, e2]
    rfl

example : PoolOk [] := by intro e he; cases he
example : convertAll [] [([97#8], [98#8, 0#8]), ([97#8, 98#8], [0#8]), ([97#8], [0#8])] = .ok [[97#8], [97#8, 98#8], [97#8]] := by decide

/-- C41 is false with NUL bytes: after converting `a\0b`, converting `a\0c` gives `a\0b`. -/
theorem C41_nul_counterexample :
    convertAll [] [([97#8, 0#8, 98#8], [0#8]), ([97#8, 0#8, 99#8], [0#8])] = .ok [[97#8, 0#8, 98#8], [97#8, 0#8, 98#8]] := by decide

/-- C41: an unterminated vector (no NUL after its bytes) makes the pool lookup read past the allocation. -/
theorem C41_unterminated_counterexample : newWithPool [] [97#8] [] = .ub := by decide

end Nature.Str
