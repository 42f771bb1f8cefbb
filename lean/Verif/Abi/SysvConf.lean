import Verif.Abi.SysvLemmas
/-
The classification the System V ABI prescribes (AMD64 psABI, section 3.2.3), stated without the code: the scalars of a value
with their offsets, and the class of each eight bytes.
-/
namespace Nature.Abi
open Nature.TypeLayout

mutual
/-- The scalars in a value at `base`, with their addresses. -/
def leaves : Ty → Nat → List (Nat × Scal)
  | .scal s, base => [(base, s)]
  | .agg es, base => leavesAll es base 0
  | .arr n e, base => (List.range n).flatMap fun j => leaves e (base + j * sizeOf e)
def leavesAll : Tys → (base off : Nat) → List (Nat × Scal)
  | .nil, _, _ => []
  | .cons t rest, base, off =>
    leaves t (base + alignUp off (alignOf t)) ++ leavesAll rest base (alignUp off (alignOf t) + sizeOf t)
end

mutual
def hasArr : Ty → Bool
  | .scal _ => false
  | .agg es => hasArrs es
  | .arr _ _ => true
def hasArrs : Tys → Bool
  | .nil => false
  | .cons t rest => hasArr t || hasArrs rest
end

namespace Sysv

/-- The class of eight bytes holding these scalars: INTEGER if one of them is an integer, SSE if all are floating point. -/
def eightbyte (ss : List (Nat × Scal)) : Cls :=
  if ss.isEmpty then .no else if ss.any (fun l => !l.2.isF) then .integer else .sse

/-- The classes the ABI prescribes; `none` is memory. -/
def abiCls (t : Ty) : Option (Cls × Cls) :=
  if 16 < sizeOf t then none
  else some (eightbyte ((leaves t 0).filter fun l => l.1 < 8), eightbyte ((leaves t 0).filter fun l => 8 ≤ l.1))

/-- The registers a result in registers comes back in, as the ABI prescribes: INTEGER takes rax then rdx, SSE takes xmm0 then
xmm1. -/
def abiRet (lo hi : Cls) : List Opd :=
  (if lo = .integer then .gp 0 else .fp 0) ::
    (if hi = .no then [] else if hi = .integer then [if lo = .integer then .gp 2 else .gp 0] else [if lo = .integer then .fp 0 else .fp 1])

/-! ### The code agrees -/

def foldC (c : Cls) (ls : List (Nat × Scal)) : Cls := ls.foldl (fun c l => merge c (if l.2.isF then .sse else .integer)) c

theorem foldC_append (c : Cls) (xs ys : List (Nat × Scal)) : foldC c (xs ++ ys) = foldC (foldC c xs) ys := List.foldl_append ..

mutual
theorem classify_fold : (t : Ty) → (lo hi : Cls) → (off : Nat) → hasArr t = false → Aligned off (alignOf t) → sizeOf t ≤ 16 →
    classify t lo hi off = some (foldC lo ((leaves t off).filter fun l => l.1 < 8), foldC hi ((leaves t off).filter fun l => 8 ≤ l.1))
  | .arr _ _, _, _, _, h, _, _ => by simp [hasArr] at h
  | .scal s, lo, hi, off, _, _, h => by
    unfold classify
    rw [if_neg (by omega)]
    dsimp only
    by_cases h8 : off < 8
    · have : ¬ 8 ≤ off := by omega
      simp [leaves, h8, this, foldC]
    · have : 8 ≤ off := by omega
      simp [leaves, h8, this, foldC]
  | .agg es, lo, hi, off, h, ha, hs => by
    unfold classify
    rw [if_neg (by omega)]
    dsimp only
    rw [alignOf] at ha
    rw [alignUp_self (max_pow es) ha, leaves]
    rw [hasArr] at h
    rw [size_agg] at hs
    have := le_alignUp (n := endFrom es 0) (max_pow es)
    exact classifyAll_fold es lo hi off 0 h ha (by omega)
theorem classifyAll_fold : (es : Tys) → (lo hi : Cls) → (base off : Nat) → hasArrs es = false → Aligned base (maxAlign es) →
    endFrom es off ≤ 16 → classifyAll es lo hi (base + off) =
      some (foldC lo ((leavesAll es base off).filter fun l => l.1 < 8), foldC hi ((leavesAll es base off).filter fun l => 8 ≤ l.1))
  | .nil, _, _, _, _, _, _, _ => rfl
  | .cons t rest, lo, hi, base, off, h, ha, he => by
    rw [hasArrs, Bool.or_eq_false_iff] at h
    rw [maxAlign] at ha
    have h1 := aligned_mono (align_pow t) (powAlign_max (align_pow t) (max_pow rest)) (Nat.le_max_left ..) ha
    have h2 := aligned_mono (max_pow rest) (powAlign_max (align_pow t) (max_pow rest)) (Nat.le_max_right ..) ha
    rw [endFrom] at he
    have g := endFrom_ge rest (alignUp off (alignOf t) + sizeOf t)
    unfold classifyAll
    dsimp only
    rw [alignUp_add (align_pow t) h1]
    have ha' : Aligned (base + alignUp off (alignOf t)) (alignOf t) := by
      rw [← alignUp_add (align_pow t) h1]; exact alignUp_aligned (align_pow t)
    rw [classify_fold t lo hi _ h.1 ha' (by omega)]
    dsimp only
    rw [Nat.add_assoc, classifyAll_fold rest _ _ base _ h.2 h2 he, leavesAll, List.filter_append, List.filter_append, foldC_append,
      foldC_append]
end

theorem foldC_eq (ls : List (Nat × Scal)) : foldC .no ls = eightbyte ls := by
  have hi : ∀ ls, foldC .integer ls = .integer := by
    intro ls
    induction ls with
    | nil => rfl
    | cons x xs ih =>
      show foldC (merge .integer _) xs = _
      have : merge .integer (if x.2.isF then .sse else .integer) = .integer := by split <;> rfl
      rw [this, ih]
  have hs : ∀ ls : List (Nat × Scal), foldC .sse ls = if ls.any (fun l => !l.2.isF) then .integer else .sse := by
    intro ls
    induction ls with
    | nil => rfl
    | cons x xs ih =>
      show foldC (merge .sse _) xs = _
      cases hx : x.2.isF with
      | true =>
        have : merge .sse (if true = true then Cls.sse else .integer) = .sse := rfl
        rw [this, ih]; simp only [List.any_cons, hx, Bool.not_true, Bool.false_or]
      | false =>
        have : merge .sse (if false = true then Cls.sse else .integer) = .integer := rfl
        rw [this, hi]; simp [hx]
  cases ls with
  | nil => rfl
  | cons x xs =>
    show foldC (merge .no _) xs = _
    unfold eightbyte
    cases hx : x.2.isF with
    | true =>
      have : merge .no (if true = true then Cls.sse else .integer) = .sse := rfl
      rw [this, hs]; simp only [List.isEmpty_cons, Bool.false_eq_true, if_false, List.any_cons, hx, Bool.not_true, Bool.false_or]
    | false =>
      have : merge .no (if false = true then Cls.sse else .integer) = .integer := rfl
      rw [this, hi]; simp [hx]

theorem cls_abi {t : Ty} (h : hasArr t = false) : cls t = abiCls t := by
  unfold abiCls
  split
  · rename_i h16
    unfold cls classify; rw [if_pos h16]
  · rename_i h16
    unfold cls
    rw [classify_fold t .no .no 0 h (by right; simp) (by omega), foldC_eq, foldC_eq]

end Sysv
end Nature.Abi
