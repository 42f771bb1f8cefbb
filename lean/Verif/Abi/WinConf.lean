import Verif.Abi.Win
/-
The Microsoft x64 convention, written from its documentation, and the places the lowering uses.
-/
namespace Nature.Abi.Win

/-- Arrays are no parameters of C functions. -/
def isArr : Ty → Bool
  | .arr _ _ => true
  | _ => false

/-- Microsoft x64: a scalar, or a struct of 1, 2, 4 or 8 bytes, is passed as it is; any other struct by its address. -/
def msByAddress : Ty → Bool
  | .scal _ => false
  | t => ![1, 2, 4, 8].contains (sizeOf t)

/-- Microsoft x64: the first four arguments are in rcx, rdx, r8, r9, or, for floating point numbers, xmm0 … xmm3; argument `i`
counts its own position, whatever the others are. -/
def msReg (i : Nat) : Ty → Opd
  | .scal s => if s.isF then .fp i else .gp ([1, 2, 8, 9].getD i 0)
  | _ => .gp ([1, 2, 8, 9].getD i 0)

/-- Where the called function finds argument `i`, relative to its frame pointer: above the saved frame pointer, the return address
and 32 bytes of home space. -/
def msIn (i : Nat) (t : Ty) : Opd := if i < 4 then msReg i t else .slot (16 + 32 + 8 * ((i : Int) - 4))

/-- Where the caller puts argument `i`, relative to its stack pointer. -/
def msOut (i : Nat) (t : Ty) : Opd := if i < 4 then msReg i t else .spo (32 + 8 * (i - 4))

/-- The parameter as the body sees it, and the number of bytes that travel. -/
def formalOf (i : Nat) (t : Ty) : Opd × Nat :=
  if msByAddress t then (.var (.formal i), 8)
  else match t with
    | .scal s => (.var (.formal i), s.size)
    | _ => (.ind (.formal i) 0, sizeOf t)

theorem cls_ms {t : Ty} (h : isArr t = false) : cls t = none ↔ msByAddress t = true := by
  cases t with
  | scal s => simp [cls, msByAddress]
  | arr n t => cases h
  | agg es =>
    simp only [cls, msByAddress, List.contains_cons, List.contains_nil]
    split
    · rename_i hs
      rcases hs with hs | hs | hs | hs <;> simp [hs]
    · rename_i hs
      simp only [not_or] at hs
      obtain ⟨h1, h2, h3, h4⟩ := hs
      simp [h1, h2, h3, h4]

theorem params_conf : ∀ (ts : List Ty) (i slot so : Nat) (ops : List Op) (so' : Nat), slot = 16 + 32 + 8 * (i - 4) →
    params i ts slot so = some (ops, so') → ∀ (j : Nat) (t : Ty), ts[j]? = some t → isArr t = false →
    .mov (formalOf (i + j) t).1 (msIn (i + j) t) (formalOf (i + j) t).2 ∈ ops := by
  intro ts
  induction ts with
  | nil => intro i slot so ops so' _ _ j t hj; simp at hj
  | cons a ts ih =>
    intro i slot so ops so' hslot hp j t hj harr
    have key : ∃ rest pre slot2 so2, params (i + 1) ts slot2 so2 = some (rest, so') ∧ slot2 = 16 + 32 + 8 * (i + 1 - 4) ∧
        ops = pre ++ rest ∧ (isArr a = false → .mov (formalOf i a).1 (msIn i a) (formalOf i a).2 ∈ pre) := by
      have hsl : ∀ h : ¬ i < 4, (Opd.slot (slot : Int)) = .slot (16 + 32 + 8 * ((i : Int) - 4)) := by
        intro h; congr 1; omega
      simp only [params] at hp
      split at hp
      · rename_i hc
        split at hp
        · rename_i hi
          simp only [intReg, Option.bind_eq_bind, Option.bind_eq_some_iff, Option.some.injEq, Prod.mk.injEq] at hp
          obtain ⟨r, hr, x, hx, rfl, rfl⟩ := hp
          refine ⟨x.1, [_], slot, so, hx, by omega, rfl, fun ha => ?_⟩
          have hb := (cls_ms ha).mp hc
          have : a ≠ .scal .i8 := by intro e; subst e; simp [msByAddress] at hb
          simp only [formalOf, hb, if_true, msIn, hi, List.mem_singleton, Op.mov.injEq, true_and, and_true]
          cases a with
          | scal s => simp [msByAddress] at hb
          | arr n t => cases ha
          | agg es => simp [msReg, List.getD, hr]
        · rename_i hi
          simp only [Option.bind_eq_bind, Option.bind_eq_some_iff, Option.some.injEq, Prod.mk.injEq] at hp
          obtain ⟨x, hx, rfl, rfl⟩ := hp
          refine ⟨x.1, [_], slot + 8, so, hx, by omega, rfl, fun ha => ?_⟩
          have hb := (cls_ms ha).mp hc
          simp only [formalOf, hb, if_true, msIn, hi, if_false, List.mem_singleton, Op.mov.injEq, true_and, and_true]
          exact (hsl hi).symm
      · rename_i c hc
        have hnb : isArr a = false → msByAddress a = false := fun ha => by
          cases hb : msByAddress a with
          | false => rfl
          | true => rw [(cls_ms ha).mpr hb] at hc; cases hc
        split at hp
        · rename_i s
          simp only [cls, Option.some.injEq] at hc
          subst hc
          split at hp
          · rename_i hi
            have hi' : i = 0 ∨ i = 1 ∨ i = 2 ∨ i = 3 := by omega
            cases hs : s.isF <;> rcases hi' with rfl | rfl | rfl | rfl <;>
              simp [hs, intReg, sseReg, Option.bind_eq_some_iff] at hp <;> obtain ⟨x, hx, rfl⟩ := hp <;>
              exact ⟨x, [_], slot, so, hx, by omega, rfl, fun ha => by simp [formalOf, msIn, msReg, hs, hnb ha]⟩
          · rename_i hi
            simp only [Option.bind_eq_bind, Option.bind_eq_some_iff, Option.some.injEq, Prod.mk.injEq] at hp
            obtain ⟨x, hx, rfl, rfl⟩ := hp
            refine ⟨x.1, [_], slot + 8, so, hx, by omega, rfl, fun ha => ?_⟩
            simp only [formalOf, hnb ha, msIn, hi, if_false, List.mem_singleton]
            simp [hsl hi]
        · rename_i hns
          split at hp
          · rename_i hi
            simp only [intReg, Option.bind_eq_bind, Option.bind_eq_some_iff, Option.some.injEq, Prod.mk.injEq] at hp
            obtain ⟨r, hr, x, hx, rfl, rfl⟩ := hp
            refine ⟨x.1, [_, _], slot, _, hx, by omega, rfl, fun ha => ?_⟩
            cases a with
            | scal s => exact absurd rfl (hns s)
            | arr n t => cases ha
            | agg es =>
              simp only [formalOf, hnb ha, msIn, hi, msReg, List.getD, hr, if_true, Option.getD_some]
              simp
          · rename_i hi
            simp only [Option.bind_eq_bind, Option.bind_eq_some_iff, Option.some.injEq, Prod.mk.injEq] at hp
            obtain ⟨x, hx, rfl, rfl⟩ := hp
            refine ⟨x.1, [_, _], slot + 8, _, hx, by omega, rfl, fun ha => ?_⟩
            cases a with
            | scal s => exact absurd rfl (hns s)
            | arr n t => cases ha
            | agg es => simp [formalOf, hnb ha, msIn, hi, hsl hi]
    obtain ⟨rest, pre, slot2, so2, h1, h2, rfl, h3⟩ := key
    cases j with
    | zero =>
      simp only [List.getElem?_cons_zero, Option.some.injEq] at hj
      subst hj
      exact List.mem_append_left _ (h3 harr)
    | succ j =>
      have := ih (i + 1) slot2 so2 rest so' h2 h1 j t (by simpa using hj) harr
      rw [show i + 1 + j = i + (j + 1) by omega] at this
      exact List.mem_append_right _ this

/-- What the caller has of argument `i` when it moves it to its place: the argument, or the address of the copy. -/
def sentOf (i : Nat) (t : Ty) : Opd × Nat :=
  if msByAddress t then (.var (.work i 0), 8)
  else match t with
    | .scal s => (.var (.actual i), s.size)
    | _ => (.ind (.actual i) 0, sizeOf t)

theorem regArgs_conf : ∀ (ts : List Ty) (i : Nat) (ops : List Op), regArgs i ts = some ops → ∀ (j : Nat) (t : Ty), ts[j]? = some t →
    isArr t = false → i + j < 4 → .mov (msOut (i + j) t) (sentOf (i + j) t).1 (sentOf (i + j) t).2 ∈ ops := by
  intro ts
  induction ts with
  | nil => intro i ops _ j t hj; simp at hj
  | cons a ts ih =>
    intro i ops hr j t hj harr hlt
    have key : ∃ rest here, regArgs (i + 1) ts = some rest ∧ ops = here ++ rest ∧
        (isArr a = false → .mov (msOut i a) (sentOf i a).1 (sentOf i a).2 ∈ here) := by
      have hi' : i = 0 ∨ i = 1 ∨ i = 2 ∨ i = 3 := by omega
      simp only [regArgs, show i < 4 by omega, if_true] at hr
      cases hc : cls a with
      | none =>
        rcases hi' with rfl | rfl | rfl | rfl <;> simp [hc, intReg, Option.bind_eq_some_iff] at hr <;> obtain ⟨x, hx, rfl⟩ := hr <;>
          refine ⟨x, [_], hx, rfl, fun ha => ?_⟩ <;> have hb := (cls_ms ha).mp hc <;> cases a <;>
          simp_all [msByAddress, isArr, msOut, msReg, sentOf]
      | some c =>
        have hnb : isArr a = false → msByAddress a = false := fun ha => by
          cases hb : msByAddress a with
          | false => rfl
          | true => rw [(cls_ms ha).mpr hb] at hc; cases hc
        cases a with
        | scal s =>
          simp only [cls, Option.some.injEq] at hc
          subst hc
          cases hs : s.isF <;> rcases hi' with rfl | rfl | rfl | rfl <;>
            simp [hs, cls, intReg, sseReg, Option.bind_eq_some_iff] at hr <;> obtain ⟨x, hx, rfl⟩ := hr
          · exact ⟨x, [_], hx, rfl, fun ha => by simp [msOut, msReg, sentOf, hs, hnb ha]⟩
          · exact ⟨x, [_], hx, rfl, fun ha => by simp [msOut, msReg, sentOf, hs, hnb ha]⟩
          · exact ⟨x, [_], hx, rfl, fun ha => by simp [msOut, msReg, sentOf, hs, hnb ha]⟩
          · exact ⟨x, [_], hx, rfl, fun ha => by simp [msOut, msReg, sentOf, hs, hnb ha]⟩
          · exact ⟨x, [_, _, _], hx, rfl, fun ha => by simp [msOut, msReg, sentOf, hs, hnb ha]⟩
          · exact ⟨x, [_, _, _], hx, rfl, fun ha => by simp [msOut, msReg, sentOf, hs, hnb ha]⟩
          · exact ⟨x, [_, _, _], hx, rfl, fun ha => by simp [msOut, msReg, sentOf, hs, hnb ha]⟩
          · exact ⟨x, [_, _, _], hx, rfl, fun ha => by simp [msOut, msReg, sentOf, hs, hnb ha]⟩
        | arr n t => cases hc
        | agg es =>
          rcases hi' with rfl | rfl | rfl | rfl <;> simp [hc, intReg, Option.bind_eq_some_iff] at hr <;> obtain ⟨x, hx, rfl⟩ := hr <;>
            exact ⟨x, [_], hx, rfl, fun ha => by simp [msOut, msReg, sentOf, hnb ha]⟩
    obtain ⟨rest, here, hrest, rfl, hh⟩ := key
    cases j with
    | zero =>
      simp only [List.getElem?_cons_zero, Option.some.injEq] at hj
      subst hj
      refine List.mem_append_left _ ?_
      exact hh harr
    | succ j =>
      have := ih (i + 1) rest hrest j t (by simpa using hj) harr (by omega)
      rw [show i + 1 + j = i + (j + 1) by omega] at this
      exact List.mem_append_right _ this

theorem stackArgs_conf : ∀ (ts : List Ty) (i j : Nat) (t : Ty), ts[j]? = some t → isArr t = false → ¬ i + j < 4 →
    .mov (msOut (i + j) t) (sentOf (i + j) t).1 (sentOf (i + j) t).2 ∈ stackArgs i ts ∨
    (.mov (.var (.work (i + j) 0)) (sentOf (i + j) t).1 (sentOf (i + j) t).2 ∈ stackArgs i ts ∧
      .mov (msOut (i + j) t) (.var (.work (i + j) 0)) (sentOf (i + j) t).2 ∈ stackArgs i ts) := by
  intro ts
  induction ts with
  | nil => intro i j t hj; simp at hj
  | cons a ts ih =>
    intro i j t hj harr hge
    have mono : ∀ o, o ∈ stackArgs (i + 1) ts → o ∈ stackArgs i (a :: ts) := by
      intro o ho
      simp only [stackArgs]
      split
      · exact ho
      · exact List.mem_append_right _ ho
    cases j with
    | zero =>
      simp only [List.getElem?_cons_zero, Option.some.injEq] at hj
      subst hj
      simp only [Nat.add_zero] at hge ⊢
      simp only [stackArgs, hge, if_false]
      cases hc : cls a with
      | none =>
        have hb := (cls_ms harr).mp hc
        left
        refine List.mem_append_left _ ?_
        simp [msOut, hge, sentOf, hb, Nat.mul_comm]
      | some c =>
        have hnb : msByAddress a = false := by
          cases hb : msByAddress a with
          | false => rfl
          | true => rw [(cls_ms harr).mpr hb] at hc; cases hc
        cases a with
        | scal s => left; refine List.mem_append_left _ ?_; simp [msOut, hge, sentOf, hnb, Nat.mul_comm]
        | arr n t => cases harr
        | agg es =>
          right
          refine ⟨List.mem_append_left _ ?_, List.mem_append_left _ ?_⟩ <;> simp [msOut, hge, sentOf, hnb, Nat.mul_comm]
    | succ j =>
      have := ih (i + 1) j t (by simpa using hj) harr (by omega)
      rw [show i + 1 + j = i + (j + 1) by omega] at this
      exact this.imp (mono _) (fun ⟨a, b⟩ => ⟨mono _ a, mono _ b⟩)

end Nature.Abi.Win
