import Verif.Branch.Spec
import Verif.Amd64.Props
/-! Branch instructions in bytes, and the symbol table at each entry. -/
namespace Nature.Branch
open Nature.Amd64 Nature.Amd64.Spec Spec

/-! ## Branch instructions -/

theorem Fmt.bytes_imms (f : Fmt) (l : List Nat) : Fmt.bytes { f with imms := l } = Fmt.bytes { f with imms := [] } ++ l := by
  simp [Fmt.bytes]

/-- The format of a row before the operands, for an instruction without registers. -/
def fmt0 (row : Row) : Fmt := row.exts.foldl buildExt { pfx := row.pfx, opc := row.opc }

/-- The row of a branch with one immediate, and the bytes in front of the immediate. -/
def brOk (n : Name) (k : Key) (c : Nat) : Bool :=
  match selectKey n [k] false with
  | some row => decide (row.ops.length = 1) && decide ((Fmt.bytes { fmt0 row with imms := [] }).length = c)
  | none => false

theorem long_ok (n : Name) (h : isBranch n = true) : brOk n (.u32, 4) (longCount n - 4).toNat = true := by
  cases n <;> first | (exfalso; revert h; decide) | decide +kernel
theorem short_ok (n : Name) (h : isBranch n = true) (hc : n ≠ .call) : brOk n (.u8, 1) 1 = true := by
  cases n <;> first | (exfalso; revert h; decide) | (exfalso; revert hc; decide) | decide +kernel

theorem enc_imm (n : Name) (o : Nat → Operand) (k : Key) (c : Nat) (l : Nat → List Nat)
    (ho : ∀ v on sR f e, fillOp on sR f e (o v) = some { f with imms := l v }) (hr : ∀ v, (o v).regs = [])
    (hk : ∀ v, (o v).key = k) (h : brOk n k c = true) :
    ∃ pre : List Nat, pre.length = c ∧ ∀ v, encode ⟨n, [o v]⟩ = some (pre ++ l v) := by
  unfold brOk at h
  split at h
  · rename_i row hrow
    simp only [Bool.and_eq_true, decide_eq_true_eq] at h
    refine ⟨_, h.2, fun v => ?_⟩
    obtain ⟨⟨t, e⟩, hops⟩ : ∃ x, row.ops = [x] := by
      rcases hl : row.ops with _ | ⟨x, _ | ⟨y, l⟩⟩ <;> simp [hl] at h
      exact ⟨x, rfl⟩
    have hsel : select ⟨n, [o v]⟩ = some row := by
      simp only [select, Inst.regs, List.map_cons, List.map_nil, List.flatMap_cons, List.flatMap_nil, hr, hk]
      exact hrow
    have hn : Inst.needRex ⟨n, [o v]⟩ = false := by simp [Inst.needRex, Inst.regs, hr]
    simp only [encode, hsel, bind, Option.bind, fill, hn, Bool.false_and, hops, fillOps, ho, pure]
    rw [← Fmt.bytes_imms]; rfl
  · cases h

theorem enc_long (n : Name) (h : isBranch n = true) :
    ∃ pre : List Nat, pre.length = (longCount n - 4).toNat ∧ ∀ v, encode ⟨n, [.u32 v]⟩ = some (pre ++ leBytes 4 v) :=
  enc_imm n .u32 _ _ _ (fun v on sR f e => by cases e <;> rfl) (fun _ => rfl) (fun _ => rfl) (long_ok n h)
theorem enc_short (n : Name) (h : isBranch n = true) (hc : n ≠ .call) :
    ∃ pre : List Nat, pre.length = 1 ∧ ∀ v, encode ⟨n, [.u8 v]⟩ = some (pre ++ [v]) :=
  enc_imm n .u8 _ _ (fun v => [v]) (fun v on sR f e => by cases e <;> rfl) (fun _ => rfl) (fun _ => rfl) (short_ok n h hc)

theorem mnems_branch (n : Name) (h : isBranch n = true) (ks : List Key) : mnems n ks = mnems n [] := by
  cases n <;> first | rfl | (exfalso; revert h; decide)
theorem widths_branch (n : Name) (h : isBranch n = true) (k : Kind) (s : Nat) (hk : k ≠ .uint) : widths n [(k, s)] = [s] := by
  cases n <;> first | (exfalso; revert h; decide) | simp [widths, hk]

/-- Reading a branch. -/
theorem dec_imm (n : Name) (h : isBranch n = true) (o : Operand) (w v : Nat)
    (ho : (o = .u32 v ∧ w = 4) ∨ (o = .u8 v ∧ w = 1)) (ok : OperandOk o) (b : List Nat) (he : encode ⟨n, [o]⟩ = some b)
    (t : List Nat) : ∃ m ∈ mnems n [], decode (b ++ t) = some (⟨m, [.imm w v]⟩, t) := by
  have hsup : Supported ⟨n, [o]⟩ := by
    refine ⟨?_, ?_, Or.inl ?_, ?_⟩
    · intro o' ho'
      simp only [List.mem_cons, List.not_mem_nil, or_false] at ho'
      subst ho'
      rcases ho with ⟨rfl, _⟩ | ⟨rfl, _⟩ <;> rfl
    · rcases ho with ⟨rfl, _⟩ | ⟨rfl, _⟩ <;> (intro h; simp [Inst.regs, Operand.regs] at h)
    · cases n <;> first | rfl | (exfalso; revert h; decide)
    · intro _ a r hr; simp at hr
  obtain ⟨insn, hm, hd⟩ := C75_encodes_partial ⟨n, [o]⟩ b he (by
    intro o' ho'
    simp only [List.mem_cons, List.not_mem_nil, or_false] at ho'
    subst ho'; exact ok) hsup t
  simp only [accepted, List.mem_map] at hm
  obtain ⟨m, hm, rfl⟩ := hm
  rw [mnems_branch n h] at hm
  refine ⟨m, hm, ?_⟩
  rw [hd]
  rcases ho with ⟨rfl, rfl⟩ | ⟨rfl, rfl⟩
  · simp only [List.map_cons, List.map_nil, Operand.key]
    rw [widths_branch n h _ _ (by decide)]; rfl
  · simp only [List.map_cons, List.map_nil, Operand.key]
    rw [widths_branch n h _ _ (by decide)]; rfl

theorem longCount_cases (n : Name) : longCount n = 5 ∨ longCount n = 6 := by
  unfold longCount; split <;> simp

theorem leBytes_length : ∀ n v, (leBytes n v).length = n
  | 0, _ => rfl
  | n + 1, v => by simp [leBytes, leBytes_length n]

/-- A rewritten branch: the distance from the start of the instruction to the target comes out. -/
theorem rewrite_spec (n : Name) (h : isBranch n = true) (diff : Int) (h0 : diff ≠ 0)
    (hlo : -2147483648 + 6 ≤ diff) (hhi : diff < 2147483648) (o : Operand)
    (ho : o = rewrite n diff ∨ o = rewrite2 n diff) (b : List Nat) (he : encode ⟨n, [o]⟩ = some b) (t : List Nat) :
    ∃ m ∈ mnems n [], ∃ w v, decode (b ++ t) = some (⟨m, [.imm w v]⟩, t) ∧ (b.length : Int) + signed w v = diff := by
  have hlong : o = .u32 ((diff - longCount n) % 4294967296).toNat →
      ∃ m ∈ mnems n [], ∃ w v, decode (b ++ t) = some (⟨m, [.imm w v]⟩, t) ∧ (b.length : Int) + signed w v = diff := by
    rintro rfl
    obtain ⟨m, hm, hd⟩ := dec_imm n h _ 4 _ (Or.inl ⟨rfl, rfl⟩) (show _ < _ by omega) b he t
    refine ⟨m, hm, 4, _, hd, ?_⟩
    obtain ⟨pre, hp, he'⟩ := enc_long n h
    replace he' := he' ((diff - longCount n) % 4294967296).toNat
    rw [he, Option.some.injEq] at he'
    subst he'
    simp only [List.length_append, leBytes_length, hp, signed]
    have := longCount_cases n
    split <;> omega
  rcases ho with ho | ho
  · unfold rewrite at ho
    split at ho
    · exact hlong (by simpa [h0] using ho)
    · rename_i hs
      have hc : n ≠ .call := fun e => hs (by simp [e])
      have h1 : ¬ diff > 129 := fun e => hs (by simp [e])
      have h2 : ¬ diff < -126 := fun e => hs (by simp [e])
      subst ho
      obtain ⟨m, hm, hd⟩ := dec_imm n h _ 1 _ (Or.inr ⟨rfl, rfl⟩) (show _ < _ by omega) b he t
      refine ⟨m, hm, 1, _, hd, ?_⟩
      obtain ⟨pre, hp, he'⟩ := enc_short n h hc
      replace he' := he' ((diff - 2) % 256).toNat
      rw [he, Option.some.injEq] at he'
      subst he'
      simp only [List.length_append, List.length_cons, List.length_nil, hp, signed]
      split <;> omega
  · exact hlong (by rw [ho, rewrite2, if_neg h0])

theorem wrap32_id (d : Int) (h1 : -2147483648 ≤ d) (h2 : d < 2147483648) : wrap32 d = d := by
  unfold wrap32; omega

/-! ## The passes, entry by entry -/

def len (ps : List Piece) : Nat := (text ps).length

theorem len_nil : len [] = 0 := rfl
theorem len_cons (p : Piece) (ps : List Piece) : len (p :: ps) = p.bytes.length + len ps := by
  simp [len, text]

/-- The symbol table after some entries. -/
def tabOf : Tab → Nat → List Item → List Piece → Tab
  | tab, off, it :: l, p :: ps => tabOf (step tab off it) (off + p.bytes.length) l ps
  | tab, _, _, _ => tab

theorem pass1_get : ∀ (l : List Item) (off : Nat) (tab : Tab) (ps : List Piece) (t : Tab),
    pass1 off tab l = some (ps, t) → ps.length = l.length ∧ t = tabOf tab off l ps ∧
    ∀ (k : Nat) (it : Item), l[k]? = some it → ∃ p, ps[k]? = some p ∧
      piece (tabOf tab off (l.take k) (ps.take k)) (off + len (ps.take k)) it = some p
  | [], off, tab, ps, t, h => by
    simp only [pass1, Option.some.injEq, Prod.mk.injEq] at h
    obtain ⟨rfl, rfl⟩ := h
    exact ⟨rfl, rfl, by simp⟩
  | it :: l, off, tab, ps, t, h => by
    simp only [pass1, bind, Option.bind_eq_some_iff, pure, Option.some.injEq, Prod.mk.injEq, Prod.exists] at h
    obtain ⟨p, hp, ps', t', hrec, rfl, rfl⟩ := h
    obtain ⟨h1, h2, h3⟩ := pass1_get l _ _ _ _ hrec
    refine ⟨by simp [h1], by simp [tabOf, h2], ?_⟩
    intro k it' hk
    cases k with
    | zero =>
      simp only [List.getElem?_cons_zero, Option.some.injEq] at hk
      subst hk
      exact ⟨p, rfl, by simpa [tabOf, len_nil] using hp⟩
    | succ k =>
      obtain ⟨q, hq, hq'⟩ := h3 k it' (by simpa using hk)
      refine ⟨q, by simpa using hq, ?_⟩
      simpa [tabOf, len_cons, Nat.add_assoc] using hq'

theorem pass2_get (tab : Tab) : ∀ (ps : List Piece) (off : Nat) (qs : List Piece), pass2 tab off ps = some qs →
    qs.length = ps.length ∧ (∀ k, len (qs.take k) = len (ps.take k)) ∧ len qs = len ps ∧
    ∀ (k : Nat) (p : Piece), ps[k]? = some p → ∃ q, qs[k]? = some q ∧ fix tab (off + len (qs.take k)) p = some q
  | [], off, qs, h => by
    simp only [pass2, Option.some.injEq] at h; subst h; simp [len_nil]
  | p :: ps, off, qs, h => by
    simp only [pass2, bind, Option.bind_eq_some_iff, pure, Option.some.injEq] at h
    obtain ⟨q, hq, qs', hrec, rfl⟩ := h
    obtain ⟨h1, h2, h3, h4⟩ := pass2_get tab ps _ _ hrec
    have hl : q.bytes.length = p.bytes.length := by
      unfold fix at hq
      split at hq
      · simp only [Option.some.injEq] at hq; rw [hq]
      · dsimp only at hq
        split at hq
        · simp only [bind, Option.bind_eq_some_iff] at hq
          obtain ⟨b, _, hq⟩ := hq
          split at hq
          · rename_i hb; simp only [Option.some.injEq] at hq; subst hq; exact hb
          · cases hq
        · simp only [Option.some.injEq] at hq; subst hq; rfl
    refine ⟨by simp [h1], ?_, by simp [len_cons, h3, hl], ?_⟩
    · intro k
      cases k with
      | zero => rfl
      | succ k => simp [len_cons, h2 k, hl]
    · intro k p' hk
      cases k with
      | zero =>
        simp only [List.getElem?_cons_zero, Option.some.injEq] at hk
        subst hk
        exact ⟨q, rfl, by simpa [len_nil] using hq⟩
      | succ k =>
        obtain ⟨r, hr, hr'⟩ := h4 k p' (by simpa using hk)
        exact ⟨r, by simpa using hr, by simpa [len_cons, Nat.add_assoc] using hr'⟩

/-! ## What the table knows -/

theorem get_step_other (tab : Tab) (off : Nat) (it : Item) (s : Sym) (v : Nat) (hv : tab.get s = some v)
    (h : it ≠ .label s) : (step tab off it).get s = some v := by
  cases it with
  | label s' =>
    have : s' ≠ s := fun e => h (by rw [e])
    simp [step, Tab.get, this, hv]
  | ref i s' tls =>
    simp only [step]
    split
    · rename_i hn
      have : s' ≠ s := fun e => by subst e; rw [hv] at hn; cases hn
      simp [Tab.get, this, hv]
    · exact hv
  | br n s' => exact hv
  | other i => exact hv

theorem tab_keep : ∀ (l : List Item) (ps : List Piece) (tab : Tab) (off : Nat) (s : Sym) (v : Nat),
    tab.get s = some v → (∀ it ∈ l, it ≠ .label s) → (tabOf tab off l ps).get s = some v
  | [], _, tab, off, s, v, h, _ => by simpa [tabOf] using h
  | _ :: _, [], tab, off, s, v, h, _ => by simpa [tabOf] using h
  | it :: l, p :: ps, tab, off, s, v, h, hl => by
    simp only [tabOf]
    exact tab_keep l ps _ _ s v (get_step_other tab off it s v h (hl it (by simp))) (fun x hx => hl x (by simp [hx]))

/-- A label that was passed is in the table with its address. -/
theorem tab_label : ∀ (l : List Item) (ps : List Piece) (tab : Tab) (off j : Nat) (s : Sym),
    ps.length = l.length → l[j]? = some (.label s) → (∀ k, l[k]? = some (.label s) → k = j) →
    (tabOf tab off l ps).get s = some (off + len (ps.take j))
  | [], _, _, _, _, _, _, h, _ => by simp at h
  | _ :: _, [], _, _, _, _, h, _, _ => by simp at h
  | it :: l, p :: ps, tab, off, 0, s, hl, h, hu => by
    simp only [List.getElem?_cons_zero, Option.some.injEq] at h
    subst h
    simp only [tabOf]
    refine tab_keep l ps _ _ s _ (by simp [step, Tab.get, len_nil]) ?_
    rintro x hx rfl
    obtain ⟨k, hk⟩ := List.getElem?_of_mem hx
    have := hu (k + 1) (by simpa using hk)
    omega
  | it :: l, p :: ps, tab, off, j + 1, s, hl, h, hu => by
    simp only [tabOf]
    rw [tab_label l ps _ _ j s (by simpa using hl) (by simpa using h) (fun k hk => by
      have := hu (k + 1) (by simpa using hk); omega)]
    simp [len_cons, Nat.add_assoc]

/-- A name never mentioned is not in the table. -/
theorem tab_none : ∀ (l : List Item) (ps : List Piece) (tab : Tab) (off : Nat) (s : Sym),
    tab.get s = none → (∀ it ∈ l, it ≠ .label s ∧ ∀ i tls, it ≠ .ref i s tls) → (tabOf tab off l ps).get s = none
  | [], _, tab, off, s, h, _ => by simpa [tabOf] using h
  | _ :: _, [], tab, off, s, h, _ => by simpa [tabOf] using h
  | it :: l, p :: ps, tab, off, s, h, hl => by
    simp only [tabOf]
    refine tab_none l ps _ _ s ?_ (fun x hx => hl x (by simp [hx]))
    have hit := hl it (by simp)
    cases it with
    | label s' =>
      have : s' ≠ s := fun e => hit.1 (by rw [e])
      simp [step, Tab.get, this, h]
    | ref i s' tls =>
      have : s' ≠ s := fun e => hit.2 i tls (by rw [e])
      simp only [step]
      split
      · simp [Tab.get, this, h]
      · exact h
    | br n s' => exact h
    | other i => exact h

/-- A name that is not a label has no address. -/
theorem tab_zero : ∀ (l : List Item) (ps : List Piece) (tab : Tab) (off : Nat) (s : Sym),
    (tab.get s).getD 0 = 0 → (∀ it ∈ l, it ≠ .label s) → ((tabOf tab off l ps).get s).getD 0 = 0
  | [], _, tab, off, s, h, _ => by simpa [tabOf] using h
  | _ :: _, [], tab, off, s, h, _ => by simpa [tabOf] using h
  | it :: l, p :: ps, tab, off, s, h, hl => by
    simp only [tabOf]
    refine tab_zero l ps _ _ s ?_ (fun x hx => hl x (by simp [hx]))
    have hit := hl it (by simp)
    cases it with
    | label s' =>
      have : s' ≠ s := fun e => hit (by rw [e])
      simpa [step, Tab.get, this] using h
    | ref i s' tls =>
      simp only [step]
      split
      · simp only [Tab.get]
        split
        · rfl
        · exact h
      · exact h
    | br n s' => exact h
    | other i => exact h

end Nature.Branch
