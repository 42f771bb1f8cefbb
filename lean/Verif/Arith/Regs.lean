import Verif.Arith.Main
/-
Which registers keep their values.
-/
namespace Nature.Arith

theorem get_upd_l {n : Nat} {x : Opd} (h : Src n x) (regs : R → BitVec 64) (i : Nat) (v : BitVec 64) :
    x.get (upd regs (.l i) v) = x.get regs := by
  cases x with
  | imm v => rfl
  | reg r => cases r <;> first | rfl | exact h.elim

theorem get_upd_s {n : Nat} {x : Opd} (h : Src n x) (regs : R → BitVec 64) (i : Nat) (v : BitVec 64) :
    x.get (upd regs (.s i) v) = x.get regs := by
  cases x with
  | imm v => rfl
  | reg r => cases r <;> first | rfl | exact h.elim

theorem get_upd_t {n : Nat} {x : Opd} (h : Src n x) (regs : R → BitVec 64) (v : BitVec 64) :
    x.get (upd regs (.t n) v) = x.get regs := by
  cases x with
  | imm v => rfl
  | reg r =>
    cases r with
    | v y => rfl
    | t m =>
      have : m ≠ n := Nat.ne_of_lt h
      simp [Opd.get, upd, this]
    | l _ => exact h.elim
    | s _ => exact h.elim

theorem frame_base (n : Nat) (s : St) (f : Flags) : Frame n s ⟨s.regs, f⟩ := ⟨fun _ => rfl, fun _ _ => rfl⟩

theorem frame_l {n : Nat} {s : St} {regs : R → BitVec 64} {f : Flags} (i : Nat) (v : BitVec 64) (h : Frame n s ⟨regs, f⟩) :
    Frame n s ⟨upd regs (.l i) v, f⟩ := ⟨fun x => h.1 x, fun m hm => h.2 m hm⟩

theorem frame_s {n : Nat} {s : St} {regs : R → BitVec 64} {f : Flags} (i : Nat) (v : BitVec 64) (h : Frame n s ⟨regs, f⟩) :
    Frame n s ⟨upd regs (.s i) v, f⟩ := ⟨fun x => h.1 x, fun m hm => h.2 m hm⟩

theorem frame_t {n : Nat} {s : St} {regs : R → BitVec 64} {f : Flags} (v : BitVec 64) (h : Frame n s ⟨regs, f⟩) :
    Frame n s ⟨upd regs (.t n) v, f⟩ :=
  ⟨fun x => h.1 x, fun m hm => by show upd regs (.t n) v (.t m) = _; rw [upd, if_neg (by simpa using hm)]; exact h.2 m hm⟩

theorem get_reg (regs : R → BitVec 64) (r : R) : Opd.get regs (.reg r) = regs r := rfl
theorem get_imm (regs : R → BitVec 64) (v : BitVec 64) : Opd.get regs (.imm v) = v := rfl

theorem upd_self (regs : R → BitVec 64) (r : R) (v : BitVec 64) : upd regs r v r = v := by simp [upd]
theorem upd_ne {regs : R → BitVec 64} {r q : R} {v : BitVec 64} (h : q ≠ r) : upd regs r v q = regs q := by simp [upd, h]

/-- Registers that are none of the machine registers an instruction selection names. -/
def Kept (n : Nat) : R → Prop
  | .v _ => True
  | .t m => m < n
  | .l _ => True
  | .s _ => False

theorem kept_s {n : Nat} {r : R} (h : Kept n r) (regs : R → BitVec 64) (i : Nat) (v : BitVec 64) : upd regs (.s i) v r = regs r := by
  cases r <;> first | rfl | exact h.elim

theorem src_kept {n : Nat} {r : R} (h : Src n (.reg r)) : Kept n r := by
  cases r <;> first | exact h | trivial | exact h.elim

macro "frames" : tactic => `(tactic| repeat (first | exact frame_base _ _ _ | with_reducible refine frame_l _ _ ?_ | with_reducible refine frame_s _ _ ?_ | with_reducible refine frame_t _ ?_))

/-- All variables and temporaries of the LIR are unchanged. -/
def Agree (s s' : St) : Prop := (∀ x, s'.regs (.v x) = s.regs (.v x)) ∧ ∀ m, s'.regs (.t m) = s.regs (.t m)

theorem Agree.refl (s : St) : Agree s s := ⟨fun _ => rfl, fun _ => rfl⟩

theorem Agree.trans {a b c : St} (h : Agree a b) (h' : Agree b c) : Agree a c :=
  ⟨fun x => (h'.1 x).trans (h.1 x), fun m => (h'.2 m).trans (h.2 m)⟩

theorem agree_get {n : Nat} {x : Opd} (hx : Src n x) {s s' : St} (h : Agree s s') : x.get s'.regs = x.get s.regs := by
  cases x with
  | imm v => rfl
  | reg r =>
    cases r with
    | v y => exact h.1 y
    | t m => exact h.2 m
    | l _ => exact hx.elim
    | s _ => exact hx.elim

theorem Agree.frame {s s' : St} (h : Agree s s') (n : Nat) : Frame n s s' := ⟨h.1, fun m _ => h.2 m⟩

theorem Frame.comp {n : Nat} {a b c : St} (h : Frame n a b) (h' : Frame n b c) : Frame n a c :=
  ⟨fun x => (h'.1 x).trans (h.1 x), fun m hm => (h'.2 m hm).trans (h.2 m hm)⟩

end Nature.Arith
