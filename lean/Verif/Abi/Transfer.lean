import Verif.Abi.MachLemmas
/-
The part of the argument that is the same for every target: if the places the arguments are put in are different places, and
the called function fetches them from there, then the called function has the arguments.
-/
namespace Nature.Abi
open Nature.TypeLayout (alignUp)

/-- A place for a part of an argument: a register, or an offset in the stack arguments. -/
inductive PL
  | gp (r : Nat) | fp (r : Nat) | stk (off : Nat)
deriving DecidableEq, Repr

/-- The operand at the call. -/
def PL.opd : PL → Opd
  | .gp r => .gp r | .fp r => .fp r | .stk off => .spo off
/-- The operand in the called function: the saved frame pointer and the return address lie between. -/
def PL.opdIn : PL → Opd
  | .gp r => .gp r | .fp r => .fp r | .stk off => .slot (16 + off)
def PL.loc (sp : Int) : PL → Loc
  | .gp r => .gp r | .fp r => .fp r | .stk off => .mem (sp + off)
def PL.isStk : PL → Bool
  | .stk _ => true | _ => false

theorem PL.opd_loc {e : Env} {s : State} (l : PL) : l.opd.loc e s = some (l.loc e.sp) := by cases l <;> rfl
theorem PL.opdIn_loc {e : Env} {sp : Int} {s : State} (h : e.fp = sp - 16) (l : PL) : l.opdIn.loc e s = some (l.loc sp) := by
  cases l <;> simp only [PL.opdIn, Opd.loc, PL.loc, h]
  congr 2; omega

/-- How an argument travels: in parts (place, offset in the value, bytes), whole in the stack arguments, or as the address of
a copy. -/
inductive Place
  | parts (ps : List (PL × Nat × Nat))
  | whole (off : Nat)
  | ref (l : PL)

/-- What is emitted besides the move of a part: nothing; a temporary between source and destination; or, for a floating point
register, copies in the memory at `home` and in the general register `g`. -/
inductive Extra
  | plain | temp | mirror (g home : Nat)
deriving DecidableEq, Repr

/-- An argument: its number, its type, how it travels, where the copy is (operand at the call and address) if it travels as an
address, the offset and size of the storage the called function makes for it if it travels in parts, what else is emitted, and
which of its bytes have to arrive. -/
structure Item where
  i : Nat
  t : Ty
  pl : Place
  cpx : Opd := .spo 0
  cp : Int := 0
  lo : Nat := 0
  lsz : Nat := 0
  ex : Extra := .plain
  P : Nat → Prop := fun k => k < sizeOf t

/-- A step of putting arguments in place. -/
inductive U
  | part (i : Nat) (t : Ty) (l : PL) (off n : Nat) (ex : Extra)
  | whole (i : Nat) (t : Ty) (off : Nat)
  | ptr (i : Nat) (l : PL)

def U.i : U → Nat
  | .part i .. => i | .whole i .. => i | .ptr i .. => i

def U.isStk : U → Bool
  | .part _ _ l _ _ _ => l.isStk | .whole .. => true | .ptr _ l => l.isStk

def U.ops : U → List Op
  | .part i t l off n .plain => [.mov l.opd (if t.ind then .ind (.actual i) off else .var (.actual i)) n]
  | .part i t l off n .temp =>
    [.mov (.var (.work i 0)) (if t.ind then .ind (.actual i) off else .var (.actual i)) n, .mov l.opd (.var (.work i 0)) n]
  | .part i _ l _ n (.mirror g home) =>
    [.mov l.opd (.var (.actual i)) n, .mov (.spo home) (.var (.actual i)) n, .mov (.gp g) (.spo home) n]
  | .whole i t off => .lea (.var (.work i 0)) (.spo off) :: memMov i (sizeOf t) (.work i 0) (.actual i)
  | .ptr i l => [.mov l.opd (.var (.work i 0)) 8]

def Item.units (it : Item) : List U :=
  match it.pl with
  | .parts ps => ps.map fun p => .part it.i it.t p.1 p.2.1 p.2.2 it.ex
  | .whole off => [.whole it.i it.t off]
  | .ref l => [.ptr it.i l]

/-- The bytes of the place a unit fills. -/
def U.cells (sp : Int) : U → CL → Prop
  | .part _ _ l _ n ex => fun c => (l.loc sp).cover n c ∨ ∃ g home, ex = .mirror g home ∧ ((Loc.gp g).cover n c ∨ memR (sp + home) n c)
  | .whole _ t off => memR (sp + off) (sizeOf t)
  | .ptr _ l => (l.loc sp).cover 8

/-- The copies made before the call. -/
def Item.copyOps (it : Item) : List Op :=
  match it.pl with
  | .ref _ => .lea (.var (.work it.i 0)) it.cpx :: memMov it.i (sizeOf it.t) (.work it.i 0) (.actual it.i)
  | _ => []

/-- What the called function does with one parameter. -/
def Item.inOps (it : Item) : List Op :=
  match it.pl with
  | .parts ps =>
    if it.t.ind then .lea (.var (.formal it.i)) (.slot (-(it.lo : Int))) :: ps.map fun p => .mov (.ind (.formal it.i) p.2.1) p.1.opdIn p.2.2
    else ps.map fun p => .mov (.var (.formal it.i)) p.1.opdIn p.2.2
  | .whole off => [.lea (.var (.work it.i 1)) (.slot (16 + off)), .mov (.var (.formal it.i)) (.var (.work it.i 1)) 8]
  | .ref l => [.mov (.var (.formal it.i)) l.opdIn 8]

/-- Byte `k` of the argument. -/
def valAt (s0 : State) (adr : Nat → Int) (i : Nat) (t : Ty) (k : Nat) : Cell :=
  if t.ind then s0 (.mem (adr i + k)) else s0 (.var (.actual i) k)

/-- Where the called function finds an argument that is not held in a variable. -/
def Item.home (it : Item) (sp : Int) : Int :=
  match it.pl with
  | .parts _ => sp - 16 - it.lo
  | .whole off => sp + off
  | .ref _ => it.cp

/-- Parts that make up the whole value. -/
def PartsOk (t : Ty) (P : Nat → Prop) (lsz : Nat) (ps : List (PL × Nat × Nat)) : Prop :=
  if t.ind then (∀ k, P k → ∃ p ∈ ps, p.2.1 ≤ k ∧ k < p.2.1 + p.2.2) ∧ (∀ p ∈ ps, p.2.1 + p.2.2 ≤ lsz) ∧
      ps.Pairwise (fun p q => p.2.1 + p.2.2 ≤ q.2.1)
  else ∃ l, ps = [(l, 0, sizeOf t)]

/-- The argument travels in a way its type allows. -/
def Item.Shape (it : Item) : Prop :=
  match it.pl with
  | .parts ps => PartsOk it.t it.P it.lsz ps ∧ match it.ex with
    | .plain => True
    | .temp => ∃ p, ps = [p]
    | .mirror _ _ => it.t.ind = false ∧ ∃ r n, ps = [(.fp r, 0, n)]
  | _ => it.t.ind = true

def Item.isRef (it : Item) : Bool := match it.pl with | .ref _ => true | _ => false
def Item.isLocal (it : Item) : Bool := match it.pl with | .parts _ => it.t.ind | _ => false

/-- Everything that has to be apart for a call. -/
structure Good (sp : Int) (S : CL → Prop) (s0 : State) (adr : Nat → Int) (ec : Env) (items : List Item) : Prop where
  ids : items.Pairwise fun a b => a.i ≠ b.i
  shape : ∀ it ∈ items, it.Shape
  bytes : ∀ it ∈ items, ∀ k, it.P k → k < sizeOf it.t
  /-- the arguments -/
  act : ∀ it ∈ items, ∀ k, S (.var (.actual it.i) k)
  obj : ∀ it ∈ items, it.t.ind = true → PtrAt s0 (.var (.actual it.i)) (adr it.i) ∧ ∀ k : Nat, k < sizeOf it.t → S (.mem (adr it.i + k))
  keep : ∀ c, S c → (∃ i k, c = .var (.actual i) k) ∨ ∃ a, c = .mem a
  /-- the places -/
  units : (items.flatMap Item.units).Pairwise fun u v => ∀ c, u.cells sp c → ¬ v.cells sp c
  unitS : ∀ u ∈ items.flatMap Item.units, ∀ c, u.cells sp c → ¬ S c
  /-- the copies -/
  cpx : ∀ it ∈ items, it.isRef = true → ∀ s, it.cpx.loc ec s = some (.mem it.cp)
  copies : items.Pairwise fun a b => a.isRef = true → b.isRef = true → ∀ c, memR a.cp (sizeOf a.t) c → ¬ memR b.cp (sizeOf b.t) c
  copyS : ∀ it ∈ items, it.isRef = true → ∀ c, memR it.cp (sizeOf it.t) c → ¬ S c
  copyU : ∀ it ∈ items, it.isRef = true → ∀ u ∈ items.flatMap Item.units, ∀ c, memR it.cp (sizeOf it.t) c → ¬ u.cells sp c
  /-- the storage in the called function -/
  locals : items.Pairwise fun a b => a.isLocal = true → b.isLocal = true → ∀ c, memR (sp - 16 - a.lo) a.lsz c → ¬ memR (sp - 16 - b.lo) b.lsz c
  localS : ∀ it ∈ items, it.isLocal = true → ∀ c, memR (sp - 16 - it.lo) it.lsz c → ¬ S c
  localU : ∀ it ∈ items, it.isLocal = true → ∀ u ∈ items.flatMap Item.units, ∀ c, memR (sp - 16 - it.lo) it.lsz c → ¬ u.cells sp c
  localC : ∀ a ∈ items, a.isLocal = true → ∀ b ∈ items, b.isRef = true → ∀ c, memR (sp - 16 - a.lo) a.lsz c → ¬ memR b.cp (sizeOf b.t) c

/-! ### At the call -/

def copyBlk (s0 : State) (adr : Nat → Int) (it : Item) : Blk where
  ops := it.copyOps
  W := fun c => it.isRef = true ∧ (memR it.cp (sizeOf it.t) c ∨ workOf it.i c)
  Q := fun s => it.isRef = true → PtrAt s (.var (.work it.i 0)) it.cp ∧ ∀ k : Nat, k < sizeOf it.t → s (.mem (it.cp + k)) = valAt s0 adr it.i it.t k

theorem work_ne {i j : Nat} : (V.work i 0) ≠ V.work i (j + 2) := by simp

theorem memR_disj {a b : Int} {n m : Nat} (h : ∀ c, memR a n c → ¬ memR b m c) : a + n ≤ b ∨ b + m ≤ a ∨ n = 0 ∨ m = 0 := by
  by_cases hn : n = 0
  · exact .inr (.inr (.inl hn))
  by_cases hm : m = 0
  · exact .inr (.inr (.inr hm))
  by_cases h1 : a + n ≤ b
  · exact .inl h1
  by_cases h2 : b + m ≤ a
  · exact .inr (.inl h2)
  exfalso
  by_cases h3 : a ≤ b
  · exact h (.mem b) (memR_mem.2 (by omega)) (memR_mem.2 (by omega))
  · exact h (.mem a) (memR_mem.2 (by omega)) (memR_mem.2 (by omega))

theorem obj_disj {S : CL → Prop} {a b : Int} {n : Nat} (hS : ∀ k : Nat, k < n → S (.mem (a + k))) (hc : ∀ c, memR b n c → ¬ S c) :
    a + n ≤ b ∨ b + n ≤ a := by
  rcases memR_disj (a := a) (b := b) (n := n) (m := n) (by
    rintro c ⟨k, hk, rfl⟩ h; exact hc _ h (hS k hk)) with h | h | h | h
  · exact .inl h
  · exact .inr h
  · subst h; by_cases h : a ≤ b <;> omega
  · subst h; by_cases h : a ≤ b <;> omega

theorem valAt_ind {s0 : State} {adr : Nat → Int} {i k : Nat} {t : Ty} (h : t.ind = true) : valAt s0 adr i t k = s0 (.mem (adr i + k)) := by
  rw [valAt, if_pos h]

theorem copyBlk_ok {sp : Int} {S : CL → Prop} {s0 : State} {adr : Nat → Int} {ec : Env} {items : List Item}
    (G : Good sp S s0 adr ec items) {it : Item} (hit : it ∈ items) : (copyBlk s0 adr it).Ok ec S s0 := by
  refine ⟨?_, ?_, ?_⟩
  · intro s hS
    by_cases hr : it.isRef = true
    · have hsh := G.shape it hit
      obtain ⟨l, hpl⟩ : ∃ l, it.pl = .ref l := by
        unfold Item.isRef at hr; split at hr
        · rename_i l h; exact ⟨l, h⟩
        · cases hr
      simp only [Item.Shape, hpl] at hsh
      obtain ⟨hp, hob⟩ := G.obj it hit hsh
      obtain ⟨s1, e1, A1, p1⟩ := step_lea (e := ec) (s := s) (d := .var (.work it.i 0)) (x := it.cpx) rfl (G.cpx it hit hr s)
      have hp1 : PtrAt s1 (.var (.actual it.i)) (adr it.i) := by
        intro k hk
        rw [A1 _ (by rintro ⟨k', _, h⟩; simp [Loc.at] at h)]
        exact (hS _ (G.act it hit k)).trans (hp k hk)
      obtain ⟨s2, e2, A2, v2⟩ := memMov_ok (e := ec) (s := s1) (i := it.i) (size := sizeOf it.t) (d := .work it.i 0) (x := .actual it.i)
        (fun j => work_ne) (fun j => by simp) (obj_disj hob (G.copyS it hit hr)) p1 hp1
      refine ⟨s2, ?_, ?_, ?_⟩
      · show exec ec it.copyOps s = some s2
        simp only [Item.copyOps, hpl]
        exact exec_cons_some e1 e2
      · refine (A1.mono ?_).trans (A2.mono ?_)
        · rintro c ⟨k, _, rfl⟩; exact ⟨hr, .inr ⟨_, _, rfl⟩⟩
        · rintro c (h | ⟨j, k, rfl⟩)
          · exact ⟨hr, .inl h⟩
          · exact ⟨hr, .inr ⟨_, _, rfl⟩⟩
      · intro _
        refine ⟨p1.agree A2 ?_, ?_⟩
        · rintro k _ (⟨k', _, h⟩ | ⟨j, k', h⟩)
          · simp [Loc.at] at h
          · simp [Loc.at] at h
        · intro k hk
          rw [v2 k hk, valAt_ind hsh, A1 _ (by rintro ⟨k', _, h⟩; simp [Loc.at] at h)]
          exact hS _ (hob k hk)
    · refine ⟨s, ?_, Agree.refl, fun h => absurd h hr⟩
      show exec ec it.copyOps s = some s
      unfold Item.copyOps Item.isRef at *
      split
      · rename_i h; rw [h] at hr; exact absurd rfl hr
      · rfl
  · rintro c ⟨hr, h | ⟨j, k, rfl⟩⟩ hS
    · exact G.copyS it hit hr c h hS
    · rcases G.keep _ hS with ⟨i, k', h⟩ | ⟨a, h⟩ <;> simp at h
  · intro s s' h q hr
    obtain ⟨q1, q2⟩ := q hr
    refine ⟨fun k hk => ?_, fun k hk => ?_⟩
    · exact (h _ (.inl ⟨hr, .inr ⟨_, _, rfl⟩⟩)).trans (q1 k hk)
    · rw [h _ (.inl ⟨hr, .inl ⟨k, hk, rfl⟩⟩)]; exact q2 k hk

/-- What holds after a unit. -/
def U.done (sp : Int) (s0 : State) (adr : Nat → Int) (cp : Nat → Int) (s : State) : U → Prop
  | .part i t l off n _ => ∀ k, k < n → off + k < sizeOf t → s ((l.loc sp).at k) = valAt s0 adr i t (off + k)
  | .whole i t off => ∀ k : Nat, k < sizeOf t → s (.mem (sp + off + k)) = valAt s0 adr i t k
  | .ptr i l => PtrAt s (l.loc sp) (cp i)

/-- The unit needs a temporary. -/
def U.tmp : U → Bool
  | .part _ _ _ _ _ .temp => true | .whole .. => true | _ => false

def unitBlk (sp : Int) (s0 : State) (adr cp : Nat → Int) (u : U) : Blk where
  ops := u.ops
  W := fun c => u.cells sp c ∨ (u.tmp = true ∧ workOf u.i c)
  Q := fun s => u.done sp s0 adr cp s

/-- The bytes that stay while arguments are put in place: those of the caller, and the copies. -/
def keep2 (S : CL → Prop) (items : List Item) (c : CL) : Prop :=
  S c ∨ ∃ it ∈ items, it.isRef = true ∧ (memR it.cp (sizeOf it.t) c ∨ ∃ k, c = .var (.work it.i 0) k)

theorem mem_units {items : List Item} {u : U} (h : u ∈ items.flatMap Item.units) : ∃ it ∈ items, u ∈ it.units := by
  simpa [List.mem_flatMap] using h

/-- Loc of a place differs from variables. -/
theorem PL.not_var {sp : Int} {l : PL} {n : Nat} {v : V} {k : Nat} : ¬ (l.loc sp).cover n (.var v k) := by
  rintro ⟨j, _, h⟩; cases l <;> simp [PL.loc, Loc.at] at h

theorem cells_not_var {sp : Int} {u : U} {v : V} {k : Nat} : ¬ u.cells sp (.var v k) := by
  cases u with
  | part i t l off n ex =>
    rintro (h | ⟨g, home, _, ⟨_, _, h⟩ | ⟨_, _, h⟩⟩)
    · exact PL.not_var h
    · simp [Loc.at] at h
    · simp at h
  | whole i t off => rintro ⟨j, _, h⟩; simp at h
  | ptr i l => exact PL.not_var

theorem pairwise_inj {items : List Item} (h : items.Pairwise fun a b => a.i ≠ b.i) {a b : Item} (ha : a ∈ items) (hb : b ∈ items)
    (e : a.i = b.i) : a = b := by
  induction items with
  | nil => cases ha
  | cons x xs ih =>
    rw [List.pairwise_cons] at h
    rcases List.mem_cons.1 ha with rfl | ha'
    · rcases List.mem_cons.1 hb with rfl | hb'
      · rfl
      · exact absurd e (h.1 b hb')
    · rcases List.mem_cons.1 hb with rfl | hb'
      · exact absurd e.symm (h.1 a ha')
      · exact ih h.2 ha' hb'

theorem unit_i {it : Item} {u : U} (h : u ∈ it.units) : u.i = it.i := by
  unfold Item.units at h
  split at h
  · obtain ⟨p, _, rfl⟩ := List.mem_map.1 h; rfl
  · rw [List.mem_singleton] at h; subst h; rfl
  · rw [List.mem_singleton] at h; subst h; rfl

theorem cells_plain {sp : Int} {i : Nat} {t : Ty} {l : PL} {off n : Nat} {c : CL} (h : (U.part i t l off n .plain).cells sp c) :
    (l.loc sp).cover n c := by
  rcases h with h | ⟨_, _, h, _⟩
  · exact h
  · cases h

/-- Moving one part. -/
theorem part_run {sp : Int} {s0 s : State} {adr cp : Nat → Int} {ec : Env} {i : Nat} {t : Ty} {l : PL} {off n : Nat} {ex : Extra} {src : Loc}
    (hsp : ec.sp = sp) (hsrc : ∀ s', (∀ k, s' (.var (.actual i) k) = s (.var (.actual i) k)) →
      (if t.ind then Opd.ind (.actual i) off else .var (.actual i)).loc ec s' = some src)
    (hm : ∀ g home, ex = .mirror g home → t.ind = false ∧ ∃ r, l = .fp r)
    (hv : ∀ k, k < n → off + k < sizeOf t → s (src.at k) = valAt s0 adr i t (off + k)) :
    ∃ s', exec ec (U.ops (.part i t l off n ex)) s = some s' ∧ Agree (unitBlk sp s0 adr cp (.part i t l off n ex)).W s s' ∧
      U.done sp s0 adr cp s' (.part i t l off n ex) := by
  cases ex with
  | plain =>
    obtain ⟨s', e1, A1, v1⟩ := step_mov (e := ec) (s := s) (d := l.opd) (n := n) (PL.opd_loc _) (hsrc s fun _ => rfl)
    rw [hsp] at A1 v1
    refine ⟨s', exec_cons_some e1 rfl, A1.mono fun c h => .inl (.inl h), ?_⟩
    intro k hk hk2
    rw [v1 k hk, hv k hk hk2]
  | temp =>
    obtain ⟨s1, e1, A1, v1⟩ := step_mov (e := ec) (s := s) (d := .var (.work i 0)) (n := n) rfl (hsrc s fun _ => rfl)
    obtain ⟨s', e2, A2, v2⟩ := step_mov (e := ec) (s := s1) (d := l.opd) (x := .var (.work i 0)) (n := n) (PL.opd_loc _) rfl
    rw [hsp] at A2 v2
    refine ⟨s', exec_cons_some e1 (exec_cons_some e2 rfl), (A1.mono ?_).trans (A2.mono fun c h => .inl (.inl h)), ?_⟩
    · rintro c ⟨k, _, rfl⟩; exact .inr ⟨rfl, _, _, rfl⟩
    · intro k hk hk2
      rw [v2 k hk, v1 k hk, hv k hk hk2]
  | mirror g home =>
    obtain ⟨ht, r, rfl⟩ := hm g home rfl
    have hs := hsrc s fun _ => rfl
    simp only [ht, Bool.false_eq_true, if_false] at hs
    obtain ⟨s1, e1, A1, v1⟩ := step_mov (e := ec) (s := s) (d := PL.opd (.fp r)) (x := .var (.actual i)) (n := n) (PL.opd_loc _) hs
    obtain ⟨s2, e2, A2, v2⟩ := step_mov (e := ec) (s := s1) (d := .spo home) (x := .var (.actual i)) (n := n) rfl rfl
    obtain ⟨s3, e3, A3, v3⟩ := step_mov (e := ec) (s := s2) (d := .gp g) (x := .spo home) (n := n) rfl rfl
    rw [hsp] at A1 v1 A2
    refine ⟨s3, exec_cons_some e1 (exec_cons_some e2 (exec_cons_some e3 rfl)),
      (A1.mono fun c h => .inl (.inl h)).trans ((A2.mono ?_).trans (A3.mono ?_)), ?_⟩
    · rintro c ⟨k, hk, rfl⟩; exact .inl (.inr ⟨g, home, rfl, .inr ⟨k, hk, rfl⟩⟩)
    · intro c h; exact .inl (.inr ⟨g, home, rfl, .inl h⟩)
    · intro k hk hk2
      rw [A3 _ (by rintro ⟨k', _, h⟩; simp [Loc.at, PL.loc] at h), A2 _ (by rintro ⟨k', _, h⟩; simp [Loc.at, PL.loc] at h), v1 k hk,
        hv k hk hk2]

theorem unitBlk_ok {sp : Int} {S : CL → Prop} {s0 s1 : State} {adr cp : Nat → Int} {ec : Env} {items : List Item}
    (hsp : ec.sp = sp) (G : Good sp S s0 adr ec items) (hS1 : ∀ c, S c → s1 c = s0 c) (hcp : ∀ it ∈ items, cp it.i = it.cp)
    (hQ : ∀ it ∈ items, (copyBlk s0 adr it).Q s1) {u : U} (hu : u ∈ items.flatMap Item.units) :
    (unitBlk sp s0 adr cp u).Ok ec (keep2 S items) s1 := by
  obtain ⟨it, hit, hu'⟩ := mem_units hu
  have hsh := G.shape it hit
  have hsep : ∀ c, u.cells sp c → ¬ keep2 S items c := by
    rintro c hc (h | ⟨it', hit', hr, h | ⟨k, rfl⟩⟩)
    · exact G.unitS u hu c hc h
    · exact G.copyU it' hit' hr u hu c h hc
    · exact cells_not_var hc
  refine ⟨?_, ?_, ?_⟩
  · intro s hS
    have hSS : ∀ c, S c → s c = s0 c := fun c hc => (hS c (.inl hc)).trans (hS1 c hc)
    unfold Item.units at hu'
    unfold Item.Shape at hsh
    cases hpl : it.pl with
    | parts ps =>
      simp only [hpl] at hu' hsh
      obtain ⟨p, hp, rfl⟩ := List.mem_map.1 hu'
      obtain ⟨hsh, hex⟩ := hsh
      unfold PartsOk at hsh
      have hm : ∀ g home, it.ex = .mirror g home → it.t.ind = false ∧ ∃ r, p.1 = .fp r := by
        intro g home he
        rw [he] at hex
        obtain ⟨h1, r, n, rfl⟩ := hex
        rw [List.mem_singleton] at hp; subst hp
        exact ⟨h1, r, rfl⟩
      by_cases ht : it.t.ind = true
      · rw [if_pos ht] at hsh
        obtain ⟨hpt, hob⟩ := G.obj it hit ht
        have hpt' : PtrAt s (.var (.actual it.i)) (adr it.i) := fun k hk => (hSS _ (G.act it hit k)).trans (hpt k hk)
        refine part_run hsp (src := .mem (adr it.i + p.2.1)) ?_ hm ?_
        · intro s' h'
          rw [if_pos ht]
          exact loc_ind fun k hk => (h' k).trans (hpt' k hk)
        · intro k hk hk2
          rw [valAt_ind ht]
          have := hSS _ (hob (p.2.1 + k) hk2)
          simp only [Loc.at]
          rw [← this]; congr 2; omega
      · rw [if_neg ht] at hsh
        obtain ⟨l, rfl⟩ := hsh
        rw [List.mem_singleton] at hp; subst hp
        refine part_run hsp (src := .var (.actual it.i)) ?_ hm ?_
        · intro s' _; rw [if_neg ht]; rfl
        · intro k hk hk2
          rw [valAt, if_neg ht]
          simp only [Loc.at, Nat.zero_add]
          exact hSS _ (G.act it hit k)
    | whole off =>
      simp only [hpl] at hu' hsh
      rw [List.mem_singleton] at hu'; subst hu'
      obtain ⟨hpt, hob⟩ := G.obj it hit hsh
      obtain ⟨s2, e1, A1, p1⟩ := step_lea (e := ec) (s := s) (d := .var (.work it.i 0)) (x := .spo off) rfl rfl
      rw [hsp] at p1
      have hpt' : PtrAt s2 (.var (.actual it.i)) (adr it.i) := by
        intro k hk
        rw [A1 _ (by rintro ⟨k', _, h⟩; simp [Loc.at] at h)]
        exact (hSS _ (G.act it hit k)).trans (hpt k hk)
      obtain ⟨s3, e2, A2, v2⟩ := memMov_ok (e := ec) (s := s2) (i := it.i) (size := sizeOf it.t) (d := .work it.i 0) (x := .actual it.i)
        (fun j => work_ne) (fun j => by simp) (obj_disj hob (G.unitS _ hu)) p1 hpt'
      refine ⟨s3, exec_cons_some e1 e2, (A1.mono ?_).trans (A2.mono ?_), ?_⟩
      · rintro c ⟨k, _, rfl⟩; exact .inr ⟨rfl, _, _, rfl⟩
      · rintro c (h | ⟨j, k, rfl⟩)
        · exact .inl h
        · exact .inr ⟨rfl, _, _, rfl⟩
      · intro k hk
        rw [v2 k hk, valAt_ind hsh, A1 _ (by rintro ⟨k', _, h⟩; simp [Loc.at] at h)]
        exact hSS _ (hob k hk)
    | ref l =>
      simp only [hpl] at hu' hsh
      rw [List.mem_singleton] at hu'; subst hu'
      have hr : it.isRef = true := by unfold Item.isRef; rw [hpl]
      obtain ⟨hq, _⟩ := hQ it hit hr
      obtain ⟨s', e1, A1, v1⟩ := step_mov (e := ec) (s := s) (d := l.opd) (x := .var (.work it.i 0)) (n := 8) (PL.opd_loc _) rfl
      rw [hsp] at A1 v1
      refine ⟨s', exec_cons_some e1 rfl, A1.mono fun c h => .inl h, ?_⟩
      intro k hk
      rw [v1 k hk, hcp it hit]
      exact (hS _ (.inr ⟨it, hit, hr, .inr ⟨k, rfl⟩⟩)).trans (hq k hk)
  · rintro c (h | ⟨htmp, j, k, rfl⟩) hk
    · exact hsep c h hk
    · rcases hk with h | ⟨it', hit', hr, ⟨k', _, h⟩ | ⟨k', h⟩⟩
      · rcases G.keep _ h with ⟨i, k', h⟩ | ⟨a, h⟩ <;> simp at h
      · simp at h
      · simp only [CL.var.injEq, V.work.injEq] at h
        have e : it = it' := pairwise_inj G.ids hit hit' (by rw [← unit_i hu']; exact h.1.1)
        subst e
        unfold Item.isRef at hr; unfold Item.units at hu'
        split at hr
        · rename_i h'; rw [h'] at hu'; rw [List.mem_singleton] at hu'; subst hu'; simp [U.tmp] at htmp
        · cases hr
  · intro s s' h q
    cases u with
    | part i t l off n ex =>
      intro k hk hk2
      rw [h _ (.inl (.inl (.inl ⟨k, hk, rfl⟩)))]; exact q k hk hk2
    | whole i t off =>
      intro k hk
      rw [h _ (.inl (.inl ⟨k, hk, rfl⟩))]; exact q k hk
    | ptr i l =>
      intro k hk
      rw [h _ (.inl (.inl ⟨k, hk, rfl⟩))]; exact q k hk

/-- The order in which the units are emitted: first those on the stack, then those in registers. -/
def emitOrder (us : List U) : List U := us.filter U.isStk ++ us.filter fun u => !u.isStk

theorem tmp_units {items : List Item} (hi : items.Pairwise fun a b => a.i ≠ b.i) (hs : ∀ it ∈ items, it.Shape) :
    (items.flatMap Item.units).Pairwise fun u v => u.tmp = true → v.tmp = true → u.i ≠ v.i := by
  induction items with
  | nil => exact .nil
  | cons x xs ih =>
    rw [List.pairwise_cons] at hi
    rw [List.flatMap_cons, List.pairwise_append]
    refine ⟨?_, ih hi.2 (fun it h => hs it (List.mem_cons_of_mem _ h)), ?_⟩
    · have hx := hs x (List.mem_cons_self ..)
      unfold Item.units
      unfold Item.Shape at hx
      split
      · rename_i ps hpl
        simp only [hpl] at hx
        cases he : x.ex with
        | plain =>
          rw [List.pairwise_map]
          refine List.pairwise_of_forall ?_
          intro p q h; simp [U.tmp] at h
        | temp =>
          rw [he] at hx
          obtain ⟨_, p, rfl⟩ := hx
          exact List.pairwise_singleton ..
        | mirror g home =>
          rw [List.pairwise_map]
          refine List.pairwise_of_forall ?_
          intro p q h; simp [U.tmp] at h
      · exact List.pairwise_singleton ..
      · exact List.pairwise_singleton ..
    · intro u hu v hv _ _
      obtain ⟨it, hit, hv'⟩ := mem_units hv
      rw [unit_i hu, unit_i hv']
      exact hi.1 it hit

theorem emit_apart {sp : Int} {S : CL → Prop} {s0 : State} {adr cp : Nat → Int} {ec : Env} {items : List Item}
    (G : Good sp S s0 adr ec items) {us : List U} (hus : us.Perm (items.flatMap Item.units)) :
    (us.map (unitBlk sp s0 adr cp)).Pairwise Apart := by
  have hp : (items.flatMap Item.units).Pairwise fun u v => Apart (unitBlk sp s0 adr cp u) (unitBlk sp s0 adr cp v) := by
    refine (G.units.and (tmp_units G.ids G.shape)).imp ?_
    rintro u v ⟨h1, h2⟩ c (hc | ⟨hu, j, k, rfl⟩) (hc' | ⟨hv, hw⟩)
    · exact h1 c hc hc'
    · obtain ⟨j, k, rfl⟩ := hw; exact cells_not_var hc
    · exact cells_not_var hc'
    · obtain ⟨j', k', h⟩ := hw
      simp only [CL.var.injEq, V.work.injEq] at h
      exact h2 hu hv h.1.1
  rw [List.pairwise_map]
  exact (hus.pairwise_iff (fun {a b} h c h1 h2 => h c h2 h1)).2 hp

theorem filter_perm {α : Type} (p : α → Bool) (l : List α) : (l.filter p ++ l.filter fun u => !p u).Perm l := by
  induction l with
  | nil => exact .nil
  | cons x xs ih =>
    cases h : p x with
    | true => simp only [List.filter_cons, h, if_true, Bool.not_true, Bool.false_eq_true, if_false, List.cons_append]; exact ih.cons x
    | false =>
      simp only [List.filter_cons, h, Bool.false_eq_true, if_false, Bool.not_false, if_true]
      exact (List.perm_middle).trans (ih.cons x)

theorem emitOrder_perm (us : List U) : (emitOrder us).Perm us := filter_perm U.isStk us

/-- What the called function does with its parameters, as pieces. -/
def inBlk (sp : Int) (s0 : State) (adr : Nat → Int) (it : Item) : Blk where
  ops := it.inOps
  W := fun c => (∃ k, c = .var (.formal it.i) k) ∨ workOf it.i c ∨ (it.isLocal = true ∧ memR (sp - 16 - it.lo) it.lsz c)
  Q := fun s => if it.t.ind then PtrAt s (.var (.formal it.i)) (it.home sp) ∧
        ∀ k : Nat, it.P k → s (.mem (it.home sp + k)) = s0 (.mem (adr it.i + k))
      else ∀ k, k < sizeOf it.t → s (.var (.formal it.i) k) = s0 (.var (.actual it.i) k)

/-- What stays while the called function fetches its parameters. -/
def keep3 (sp : Int) (S : CL → Prop) (items : List Item) (c : CL) : Prop :=
  S c ∨ (∃ it ∈ items, it.isRef = true ∧ memR it.cp (sizeOf it.t) c) ∨ ∃ u ∈ items.flatMap Item.units, u.cells sp c

/-- Storing parts into storage one after the other. -/
theorem parts_store {e : Env} {sp : Int} (hfp : e.fp = sp - 16) {v : V} {b : Int} : ∀ (ps : List (PL × Nat × Nat)) (lsz : Nat) (s : State),
    PtrAt s (.var v) b → (∀ p ∈ ps, p.2.1 + p.2.2 ≤ lsz) →
    (∀ p ∈ ps, ∀ c, (p.1.loc sp).cover p.2.2 c → ¬ memR b lsz c) →
    ps.Pairwise (fun p q => p.2.1 + p.2.2 ≤ q.2.1) →
    ∃ s', exec e (ps.map fun p => .mov (.ind v p.2.1) p.1.opdIn p.2.2) s = some s' ∧ Agree (memR b lsz) s s' ∧
      ∀ p ∈ ps, ∀ k, k < p.2.2 → s' (.mem (b + (p.2.1 + k : Nat))) = s ((p.1.loc sp).at k)
  | [], _, s, _, _, _, _ => ⟨s, rfl, Agree.refl, fun _ h => by cases h⟩
  | p :: ps, lsz, s, hp, hin, hap, hpw => by
    rw [List.pairwise_cons] at hpw
    obtain ⟨s1, e1, A1, v1⟩ := step_mov (e := e) (s := s) (d := .ind v p.2.1) (x := p.1.opdIn) (n := p.2.2) (loc_ind hp)
      (PL.opdIn_loc hfp _)
    have hin1 := hin p (List.mem_cons_self ..)
    have A1' : Agree (memR b lsz) s s1 := A1.mono (by
      rintro c ⟨k, hk, rfl⟩; exact ⟨p.2.1 + k, by omega, by simp only [Loc.at, CL.mem.injEq]; omega⟩)
    have hp1 : PtrAt s1 (.var v) b := hp.agree A1' (by rintro k _ ⟨k', _, h⟩; simp [Loc.at] at h)
    obtain ⟨s', e2, A2, v2⟩ := parts_store hfp ps lsz s1 hp1 (fun q h => hin q (List.mem_cons_of_mem _ h))
      (fun q h => hap q (List.mem_cons_of_mem _ h)) hpw.2
    refine ⟨s', exec_cons_some e1 e2, A1'.trans A2, ?_⟩
    intro q hq k hk
    rcases List.mem_cons.1 hq with rfl | hq'
    · -- later parts lie behind this one
      have key : s' (.mem (b + (q.2.1 + k : Nat))) = s1 (.mem (b + (q.2.1 + k : Nat))) := by
        have : ∀ (ps : List (PL × Nat × Nat)) (s1 s' : State), PtrAt s1 (.var v) b →
            (∀ q' ∈ ps, q.2.1 + q.2.2 ≤ q'.2.1) →
            exec e (ps.map fun p => .mov (.ind v p.2.1) p.1.opdIn p.2.2) s1 = some s' →
            s' (.mem (b + (q.2.1 + k : Nat))) = s1 (.mem (b + (q.2.1 + k : Nat))) := by
          intro ps
          induction ps with
          | nil => intro s1 s' _ _ h; cases h; rfl
          | cons p' ps ih =>
            intro s1 s' hp1 hlt h
            obtain ⟨s2, f1, B1, _⟩ := step_mov (e := e) (s := s1) (d := .ind v p'.2.1) (x := p'.1.opdIn) (n := p'.2.2) (loc_ind hp1)
              (PL.opdIn_loc hfp _)
            simp only [List.map_cons, exec, f1, Option.bind_eq_bind, Option.bind_some] at h
            have hp2 : PtrAt s2 (.var v) b := hp1.agree B1 (by rintro k _ ⟨k', _, h⟩; simp [Loc.at] at h)
            rw [ih s2 s' hp2 (fun q' h' => hlt q' (List.mem_cons_of_mem _ h')) h]
            refine B1 _ ?_
            rintro ⟨k', hk', h'⟩
            have := hlt p' (List.mem_cons_self ..)
            simp only [Loc.at, CL.mem.injEq] at h'
            omega
        exact this ps s1 s' hp1 hpw.1 e2
      rw [key]
      rw [← v1 k hk]
      show s1 (.mem _) = s1 (.mem _)
      congr 2; omega
    · rw [v2 q hq' k hk]
      refine A1' _ fun h => ?_
      exact hap q hq _ ⟨k, hk, rfl⟩ h

theorem inBlk_ok {sp : Int} {S : CL → Prop} {s0 s1 : State} {adr cp : Nat → Int} {ec ee : Env} {items : List Item}
    (hfp : ee.fp = sp - 16) (G : Good sp S s0 adr ec items) (hS1 : ∀ c, S c → s1 c = s0 c) (hcp : ∀ it ∈ items, cp it.i = it.cp)
    (hC : ∀ it ∈ items, it.isRef = true → ∀ k : Nat, k < sizeOf it.t → s1 (.mem (it.cp + k)) = valAt s0 adr it.i it.t k)
    (hU : ∀ u ∈ items.flatMap Item.units, u.done sp s0 adr cp s1) {it : Item} (hit : it ∈ items) :
    (inBlk sp s0 adr it).Ok ee (keep3 sp S items) s1 := by
  have hsh := G.shape it hit
  refine ⟨?_, ?_, ?_⟩
  · intro s hS
    show ∃ s', exec ee it.inOps s = some s' ∧ _
    unfold Item.inOps
    unfold Item.Shape at hsh
    cases hpl : it.pl with
    | parts ps =>
      simp only [hpl] at hsh ⊢
      have hsh := hsh.1
      unfold PartsOk at hsh
      have hup : ∀ p ∈ ps, U.part it.i it.t p.1 p.2.1 p.2.2 it.ex ∈ items.flatMap Item.units := fun p hp =>
        List.mem_flatMap.2 ⟨it, hit, by unfold Item.units; rw [hpl]; exact List.mem_map.2 ⟨p, hp, rfl⟩⟩
      by_cases ht : it.t.ind = true
      · rw [if_pos ht] at hsh
        rw [if_pos ht]
        obtain ⟨hcov, hin, hpw⟩ := hsh
        have hl : it.isLocal = true := by unfold Item.isLocal; rw [hpl]; exact ht
        obtain ⟨s2, e1, A1, p1⟩ := step_lea (e := ee) (s := s) (d := .var (.formal it.i)) (x := .slot (-(it.lo : Int))) rfl rfl
        have hb : ee.fp + -(it.lo : Int) = sp - 16 - it.lo := by omega
        rw [hb] at p1
        obtain ⟨s3, e2, A2, v2⟩ := parts_store hfp ps it.lsz s2 p1 hin (fun p hp c hc hm =>
          G.localU it hit hl _ (hup p hp) c hm (.inl hc)) hpw
        refine ⟨s3, exec_cons_some e1 e2, (A1.mono ?_).trans (A2.mono ?_), ?_⟩
        · rintro c ⟨k, _, rfl⟩; exact .inl ⟨_, rfl⟩
        · intro c h; exact .inr (.inr ⟨hl, h⟩)
        · show if it.t.ind then _ else _
          rw [if_pos ht]
          have hh : it.home sp = sp - 16 - it.lo := by unfold Item.home; rw [hpl]
          rw [hh]
          refine ⟨p1.agree A2 (by rintro k _ ⟨k', _, h⟩; simp [Loc.at] at h), ?_⟩
          intro k hk
          obtain ⟨p, hp, h1, h2⟩ := hcov k hk
          have := v2 p hp (k - p.2.1) (by omega)
          have e3 : p.2.1 + (k - p.2.1) = k := by omega
          rw [e3] at this
          rw [this, A1 _ (by
            rintro ⟨k', _, h⟩
            cases hl' : p.1 <;> rw [hl'] at h <;> simp [PL.loc, Loc.at] at h)]
          rw [hS _ (.inr (.inr ⟨_, hup p hp, .inl ⟨k - p.2.1, by show k - p.2.1 < p.2.2; omega, rfl⟩⟩))]
          have hks := G.bytes it hit k hk
          have := hU _ (hup p hp) (k - p.2.1) (by omega) (by omega)
          rw [this, e3, valAt_ind ht]
      · rw [if_neg ht] at hsh
        rw [if_neg ht]
        obtain ⟨l, rfl⟩ := hsh
        obtain ⟨s2, e1, A1, v1⟩ := step_mov (e := ee) (s := s) (d := .var (.formal it.i)) (x := l.opdIn) (n := sizeOf it.t) rfl
          (PL.opdIn_loc hfp _)
        refine ⟨s2, exec_cons_some e1 rfl, A1.mono ?_, ?_⟩
        · rintro c ⟨k, _, rfl⟩; exact .inl ⟨_, rfl⟩
        · show if it.t.ind then _ else _
          rw [if_neg ht]
          intro k hk
          have hm := hup (l, 0, sizeOf it.t) (List.mem_singleton.2 rfl)
          have e3 := hU _ hm k hk (by simpa using hk)
          rw [valAt, if_neg ht, Nat.zero_add] at e3
          exact ((v1 k hk).trans (hS _ (.inr (.inr ⟨_, hm, .inl ⟨k, hk, rfl⟩⟩)))).trans e3
    | whole off =>
      simp only [hpl] at hsh ⊢
      have hm : U.whole it.i it.t off ∈ items.flatMap Item.units := List.mem_flatMap.2 ⟨it, hit, by
        unfold Item.units; rw [hpl]; exact List.mem_singleton.2 rfl⟩
      obtain ⟨s2, e1, A1, p1⟩ := step_lea (e := ee) (s := s) (d := .var (.work it.i 1)) (x := .slot (16 + off)) rfl rfl
      have hb : ee.fp + (16 + (off : Int)) = sp + off := by omega
      rw [hb] at p1
      obtain ⟨s3, e2, A2, v2⟩ := step_mov (e := ee) (s := s2) (d := .var (.formal it.i)) (x := .var (.work it.i 1)) (n := 8) rfl rfl
      refine ⟨s3, exec_cons_some e1 (exec_cons_some e2 rfl), (A1.mono ?_).trans (A2.mono ?_), ?_⟩
      · rintro c ⟨k, _, rfl⟩; exact .inr (.inl ⟨_, _, rfl⟩)
      · rintro c ⟨k, _, rfl⟩; exact .inl ⟨_, rfl⟩
      · show if it.t.ind then _ else _
        rw [if_pos hsh]
        have hh : it.home sp = sp + off := by unfold Item.home; rw [hpl]
        rw [hh]
        refine ⟨fun k hk => (v2 k hk).trans (p1 k hk), ?_⟩
        intro k hk
        have hk := G.bytes it hit k hk
        rw [A2 _ (by rintro ⟨k', _, h⟩; simp [Loc.at] at h), A1 _ (by rintro ⟨k', _, h⟩; simp [Loc.at] at h)]
        rw [hS _ (.inr (.inr ⟨_, hm, k, hk, rfl⟩))]
        rw [hU _ hm k hk, valAt_ind hsh]
    | ref l =>
      simp only [hpl] at hsh ⊢
      have hr : it.isRef = true := by unfold Item.isRef; rw [hpl]
      have hm : U.ptr it.i l ∈ items.flatMap Item.units := List.mem_flatMap.2 ⟨it, hit, by
        unfold Item.units; rw [hpl]; exact List.mem_singleton.2 rfl⟩
      obtain ⟨s3, e2, A2, v2⟩ := step_mov (e := ee) (s := s) (d := .var (.formal it.i)) (x := l.opdIn) (n := 8) rfl
        (PL.opdIn_loc hfp _)
      refine ⟨s3, exec_cons_some e2 rfl, A2.mono ?_, ?_⟩
      · rintro c ⟨k, _, rfl⟩; exact .inl ⟨_, rfl⟩
      · show if it.t.ind then _ else _
        rw [if_pos hsh]
        have hh : it.home sp = it.cp := by unfold Item.home; rw [hpl]
        rw [hh]
        refine ⟨fun k hk => ?_, ?_⟩
        · rw [v2 k hk, hS _ (.inr (.inr ⟨_, hm, k, hk, rfl⟩)), ← hcp it hit]
          exact hU _ hm k hk
        · intro k hk
          have hk := G.bytes it hit k hk
          rw [A2 _ (by rintro ⟨k', _, h⟩; simp [Loc.at] at h)]
          rw [hS _ (.inr (.inl ⟨it, hit, hr, k, hk, rfl⟩))]
          rw [hC it hit hr k hk, valAt_ind hsh]
  · rintro c (⟨k, rfl⟩ | ⟨j, k, rfl⟩ | ⟨hl, hm⟩) hk
    · rcases hk with h | ⟨it', _, _, k', _, h⟩ | ⟨u, _, h⟩
      · rcases G.keep _ h with ⟨i, k', h⟩ | ⟨a, h⟩ <;> simp at h
      · simp at h
      · exact cells_not_var h
    · rcases hk with h | ⟨it', _, _, k', _, h⟩ | ⟨u, _, h⟩
      · rcases G.keep _ h with ⟨i, k', h⟩ | ⟨a, h⟩ <;> simp at h
      · simp at h
      · exact cells_not_var h
    · rcases hk with h | ⟨it', hit', hr, h⟩ | ⟨u, hu, h⟩
      · exact G.localS it hit hl c hm h
      · exact G.localC it hit hl it' hit' hr c hm h
      · exact G.localU it hit hl u hu c hm h
  · intro s s' h q
    show if it.t.ind then _ else _
    have q' : if it.t.ind then _ else _ := q
    split at q'
    · rename_i ht
      rw [if_pos ht]
      refine ⟨fun k hk => ?_, fun k hk => ?_⟩
      · exact (h _ (.inl (.inl ⟨k, rfl⟩))).trans (q'.1 k hk)
      · rw [← q'.2 k hk]
        refine h _ ?_
        have hkP := hk
        have hk := G.bytes it hit k hk
        unfold Item.home
        cases hpl : it.pl with
        | parts ps =>
          left; right; right
          have hl : it.isLocal = true := by unfold Item.isLocal; rw [hpl]; exact ht
          refine ⟨hl, k, ?_, rfl⟩
          unfold Item.Shape at hsh; simp only [hpl] at hsh
          have hsh := hsh.1
          unfold PartsOk at hsh; rw [if_pos ht] at hsh
          obtain ⟨p, hp, h1, h2⟩ := hsh.1 k hkP
          have := hsh.2.1 p hp; omega
        | whole off =>
          right; right; right
          exact ⟨.whole it.i it.t off, List.mem_flatMap.2 ⟨it, hit, by unfold Item.units; rw [hpl]; exact List.mem_singleton.2 rfl⟩,
            k, hk, rfl⟩
        | ref l =>
          right; right; left
          exact ⟨it, hit, by unfold Item.isRef; rw [hpl], k, hk, rfl⟩
    · rename_i ht
      rw [if_neg ht]
      intro k hk
      rw [h _ (.inl (.inl ⟨k, rfl⟩))]; exact q' k hk

/-- The bytes written by a call and by the entry of the called function. -/
def touched (sp : Int) (items : List Item) (c : CL) : Prop :=
  (∃ it ∈ items, it.isRef = true ∧ memR it.cp (sizeOf it.t) c) ∨ (∃ u ∈ items.flatMap Item.units, u.cells sp c) ∨
  (∃ it ∈ items, it.isLocal = true ∧ memR (sp - 16 - it.lo) it.lsz c)

theorem blks_ops {f : Item → List Op} {g : Item → Blk} (h : ∀ it, (g it).ops = f it) (l : List Item) :
    (l.map g).flatMap Blk.ops = l.flatMap f := by
  rw [List.flatMap_map]; congr 1; funext it; exact h it

/-- A call passes its arguments. -/
theorem transfer {sp : Int} {S : CL → Prop} {s0 : State} {adr : Nat → Int} {ec ee : Env} {items : List Item}
    (hsp : ec.sp = sp) (hfp : ee.fp = sp - 16) (G : Good sp S s0 adr ec items) {us : List U} (hus : us.Perm (items.flatMap Item.units)) :
    ∃ s1 s2, exec ec (items.flatMap Item.copyOps ++ us.flatMap U.ops) s0 = some s1 ∧
      exec ee (items.flatMap Item.inOps) s1 = some s2 ∧
      (∀ it ∈ items, (inBlk sp s0 adr it).Q s2) ∧ (∀ c, S c → s2 c = s0 c) ∧
      ∀ a, ¬ touched sp items (.mem a) → s2 (.mem a) = s0 (.mem a) := by
  -- copies
  have pc : (items.map (copyBlk s0 adr)).Pairwise Apart := by
    rw [List.pairwise_map]
    refine (G.copies.and G.ids).imp ?_
    rintro a b ⟨h, hi⟩ c ⟨ra, ha⟩ ⟨rb, hb⟩
    rcases ha with ha | ⟨j, k, rfl⟩
    · rcases hb with hb | ⟨j, k, rfl⟩
      · exact h ra rb c ha hb
      · obtain ⟨k', _, h'⟩ := ha; simp at h'
    · rcases hb with ⟨k', _, h'⟩ | ⟨j', k', h'⟩
      · simp at h'
      · simp only [CL.var.injEq, V.work.injEq] at h'; exact hi h'.1.1
  obtain ⟨sa, ea, Aa, Sa, Qa⟩ := run_blks (e := ec) (S := S) (s0 := s0) (items.map (copyBlk s0 adr))
    (fun b hb => by obtain ⟨it, hit, rfl⟩ := List.mem_map.1 hb; exact copyBlk_ok G hit) pc s0 (fun _ _ => rfl)
  rw [blks_ops (f := Item.copyOps) (fun _ => rfl)] at ea
  have Qa' : ∀ it ∈ items, (copyBlk s0 adr it).Q sa := fun it hit => Qa _ (List.mem_map.2 ⟨it, hit, rfl⟩)
  -- units
  let cp : Nat → Int := fun i => ((items.find? fun it => it.i == i).map Item.cp).getD 0
  have hcp : ∀ it ∈ items, cp it.i = it.cp := by
    intro it hit
    show ((items.find? fun it' => it'.i == it.i).map Item.cp).getD 0 = it.cp
    cases hf : items.find? fun it' => it'.i == it.i with
    | none => have := List.find?_eq_none.1 hf it hit; simp at this
    | some it' =>
      have h1 := List.find?_some hf
      have h2 := List.mem_of_find?_eq_some hf
      rw [pairwise_inj G.ids h2 hit (by simpa using h1)]; rfl
  obtain ⟨sb, eb, Ab, Sb, Qb⟩ := run_blks (e := ec) (S := keep2 S items) (s0 := sa)
    (us.map (unitBlk sp s0 adr cp))
    (fun b hb => by
      obtain ⟨u, hu, rfl⟩ := List.mem_map.1 hb
      exact unitBlk_ok hsp G Sa hcp Qa' (hus.mem_iff.1 hu)) (emit_apart G hus) sa (fun _ _ => rfl)
  have eb' : exec ec (us.flatMap U.ops) sa = some sb := by
    rw [List.flatMap_map] at eb; exact eb
  have Qb' : ∀ u ∈ items.flatMap Item.units, u.done sp s0 adr cp sb := fun u hu =>
    Qb _ (List.mem_map.2 ⟨u, hus.mem_iff.2 hu, rfl⟩)
  have SSb : ∀ c, S c → sb c = s0 c := fun c hc => (Sb c (.inl hc)).trans (Sa c hc)
  have hC : ∀ it ∈ items, it.isRef = true → ∀ k : Nat, k < sizeOf it.t → sb (.mem (it.cp + k)) = valAt s0 adr it.i it.t k := by
    intro it hit hr k hk
    rw [Sb _ (.inr ⟨it, hit, hr, .inl ⟨k, hk, rfl⟩⟩)]
    exact (Qa' it hit hr).2 k hk
  -- parameters
  have pi : (items.map (inBlk sp s0 adr)).Pairwise Apart := by
    rw [List.pairwise_map]
    refine (G.locals.and G.ids).imp ?_
    rintro a b ⟨h, hi⟩ c ha hb
    rcases ha with ⟨k, rfl⟩ | ⟨j, k, rfl⟩ | ⟨la, ha⟩
    · rcases hb with ⟨k', h'⟩ | ⟨j', k', h'⟩ | ⟨_, k', _, h'⟩
      · simp only [CL.var.injEq, V.formal.injEq] at h'; exact hi h'.1
      · simp at h'
      · simp at h'
    · rcases hb with ⟨k', h'⟩ | ⟨j', k', h'⟩ | ⟨_, k', _, h'⟩
      · simp at h'
      · simp only [CL.var.injEq, V.work.injEq] at h'; exact hi h'.1.1
      · simp at h'
    · rcases hb with ⟨k', rfl⟩ | ⟨j', k', rfl⟩ | ⟨lb, hb⟩
      · obtain ⟨_, _, h'⟩ := ha; simp at h'
      · obtain ⟨_, _, h'⟩ := ha; simp at h'
      · exact h la lb c ha hb
  obtain ⟨sc, ecc, Ac, Sc, Qc⟩ := run_blks (e := ee) (S := keep3 sp S items) (s0 := sb) (items.map (inBlk sp s0 adr))
    (fun b hb => by
      obtain ⟨it, hit, rfl⟩ := List.mem_map.1 hb
      exact inBlk_ok hfp G SSb hcp hC Qb' hit) pi sb (fun _ _ => rfl)
  rw [blks_ops (f := Item.inOps) (fun _ => rfl)] at ecc
  refine ⟨sb, sc, exec_append_some ea eb', ecc, fun it hit => Qc _ (List.mem_map.2 ⟨it, hit, rfl⟩),
    fun c hc => (Sc c (.inl hc)).trans (SSb c hc), ?_⟩
  intro a ha
  rw [Ac, Ab, Aa]
  · rintro ⟨b, hb, h⟩
    obtain ⟨it, hit, rfl⟩ := List.mem_map.1 hb
    rcases h with ⟨hr, h | ⟨j, k, h⟩⟩
    · exact ha (.inl ⟨it, hit, hr, h⟩)
    · simp at h
  · rintro ⟨b, hb, h⟩
    obtain ⟨u, hu, rfl⟩ := List.mem_map.1 hb
    rcases h with h | ⟨_, j, k, h⟩
    · exact ha (.inr (.inl ⟨u, hus.mem_iff.1 hu, h⟩))
    · simp at h
  · rintro ⟨b, hb, h⟩
    obtain ⟨it, hit, rfl⟩ := List.mem_map.1 hb
    rcases h with ⟨k, h⟩ | ⟨j, k, h⟩ | ⟨hl, h⟩
    · simp at h
    · simp at h
    · exact ha (.inr (.inr ⟨it, hit, hl, h⟩))

end Nature.Abi
