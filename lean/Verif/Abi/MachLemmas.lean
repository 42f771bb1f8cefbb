import Verif.Abi.Mach
namespace Nature.Abi
open Nature.TypeLayout (alignUp)

theorem idx_some {d : Loc} {c : CL} {k : Nat} : d.idx c = some k ↔ c = d.at k := by
  cases d <;> cases c <;> simp only [Loc.idx, Loc.at, reduceCtorEq, CL.gp.injEq, CL.fp.injEq, CL.var.injEq, CL.mem.injEq]
  · split
    · rename_i h; subst h; simp
    · rename_i h; simp only [reduceCtorEq, false_iff, not_and]; intro h'; exact absurd h'.symm h
  · split
    · rename_i h; subst h; simp
    · rename_i h; simp only [reduceCtorEq, false_iff, not_and]; intro h'; exact absurd h'.symm h
  · split
    · rename_i h; subst h; simp
    · rename_i h; simp only [reduceCtorEq, false_iff, not_and]; intro h'; exact absurd h'.symm h
  · split
    · simp only [Option.some.injEq]; omega
    · simp only [reduceCtorEq, false_iff]; omega

/-- The first `n` bytes of a place. -/
def Loc.cover (d : Loc) (n : Nat) (c : CL) : Prop := ∃ k, k < n ∧ c = d.at k

theorem copy_at {s : State} {d l : Loc} {n k : Nat} (h : k < n) : copy s d l n (d.at k) = s (l.at k) := by
  unfold copy; rw [idx_some.2 rfl]; simp only [if_pos h]

theorem copy_other {s : State} {d l : Loc} {n : Nat} {c : CL} (h : ¬ d.cover n c) : copy s d l n c = s c := by
  unfold copy
  split
  · rename_i k hk
    rw [if_neg]
    intro hn; exact h ⟨k, hn, idx_some.1 hk⟩
  · rfl

theorem putPtr_at {s : State} {d : Loc} {a : Int} {k : Nat} (h : k < 8) : putPtr s d a (d.at k) = .ptr a k := by
  unfold putPtr; rw [idx_some.2 rfl]; simp only [if_pos h]

theorem putPtr_other {s : State} {d : Loc} {a : Int} {c : CL} (h : ¬ d.cover 8 c) : putPtr s d a c = s c := by
  unfold putPtr
  split
  · rename_i k hk
    rw [if_neg]
    intro hn; exact h ⟨k, hn, idx_some.1 hk⟩
  · rfl

/-- The place holds the address `a`. -/
def PtrAt (s : State) (l : Loc) (a : Int) : Prop := ∀ k, k < 8 → s (l.at k) = .ptr a k

theorem getPtr_some {s : State} {l : Loc} {a : Int} : getPtr s l = some a ↔ PtrAt s l a := by
  unfold getPtr PtrAt
  constructor
  · intro h
    split at h
    · split at h
      · rename_i h2
        cases h
        intro k hk
        have := List.all_eq_true.1 h2 k (List.mem_range.2 hk)
        exact of_decide_eq_true this
      · cases h
    · cases h
  · intro h
    have h0 := h 0 (by omega)
    rw [h0]
    simp only
    rw [if_pos]
    exact List.all_eq_true.2 fun k hk => decide_eq_true (h k (List.mem_range.1 hk))

/-- The states agree except at `W`. -/
def Agree (W : CL → Prop) (s s' : State) : Prop := ∀ c, ¬ W c → s' c = s c

theorem Agree.refl {W : CL → Prop} {s : State} : Agree W s s := fun _ _ => rfl

theorem Agree.mono {W W' : CL → Prop} {s s' : State} (h : Agree W s s') (hW : ∀ c, W c → W' c) : Agree W' s s' :=
  fun c hc => h c fun h' => hc (hW c h')

theorem Agree.trans {W : CL → Prop} {s s' s'' : State} (h : Agree W s s') (h' : Agree W s' s'') : Agree W s s'' :=
  fun c hc => (h' c hc).trans (h c hc)

theorem PtrAt.agree {W : CL → Prop} {s s' : State} {l : Loc} {a : Int} (h : PtrAt s l a) (hA : Agree W s s')
    (hl : ∀ k, k < 8 → ¬ W (l.at k)) : PtrAt s' l a := fun k hk => (hA _ (hl k hk)).trans (h k hk)

theorem exec_append {e : Env} : ∀ (xs ys : List Op) (s : State), exec e (xs ++ ys) s = (exec e xs s).bind (exec e ys)
  | [], ys, s => rfl
  | x :: xs, ys, s => by
    rw [List.cons_append]
    simp only [exec, Option.bind_eq_bind]
    cases step e s x with
    | none => rfl
    | some s' => simpa using exec_append xs ys s'

theorem exec_append_some {e : Env} {xs ys : List Op} {s s1 s2 : State} (h1 : exec e xs s = some s1)
    (h2 : exec e ys s1 = some s2) : exec e (xs ++ ys) s = some s2 := by
  rw [exec_append, h1]; exact h2

theorem exec_cons_some {e : Env} {x : Op} {ys : List Op} {s s1 s2 : State} (h1 : step e s x = some s1)
    (h2 : exec e ys s1 = some s2) : exec e (x :: ys) s = some s2 := by
  simp only [exec, h1, Option.bind_eq_bind, Option.bind_some, h2]

theorem step_mov {e : Env} {s : State} {d x : Opd} {n : Nat} {ld lx : Loc} (hd : d.loc e s = some ld) (hx : x.loc e s = some lx) :
    ∃ s', step e s (.mov d x n) = some s' ∧ Agree (ld.cover n) s s' ∧ ∀ k, k < n → s' (ld.at k) = s (lx.at k) := by
  refine ⟨copy s ld lx n, ?_, fun c hc => copy_other hc, fun k hk => copy_at hk⟩
  simp only [step, hd, hx, Option.bind_eq_bind, Option.bind_some]

theorem step_lea {e : Env} {s : State} {d x : Opd} {ld : Loc} {a : Int} (hd : d.loc e s = some ld) (hx : x.loc e s = some (.mem a)) :
    ∃ s', step e s (.lea d x) = some s' ∧ Agree (ld.cover 8) s s' ∧ PtrAt s' ld a := by
  refine ⟨putPtr s ld a, ?_, fun c hc => putPtr_other hc, fun k hk => putPtr_at hk⟩
  simp only [step, hd, hx, Option.bind_eq_bind, Option.bind_some]

theorem loc_ind {e : Env} {s : State} {v : V} {off : Nat} {a : Int} (h : PtrAt s (.var v) a) :
    (Opd.ind v off).loc e s = some (.mem (a + off)) := by
  simp only [Opd.loc, getPtr_some.2 h, Option.map_some]

/-! ### Block copy -/

theorem chunks_in : ∀ (rem off : Nat), ∀ c ∈ chunks rem off, off ≤ c.1 ∧ c.1 + c.2 ≤ off + rem := by
  intro rem
  induction rem using Nat.strongRecOn with
  | _ rem ih =>
    intro off c hc
    rw [chunks] at hc
    split at hc
    · cases hc
    · rename_i h0
      have hi := item_pos rem
      have hle : rem / item rem * item rem ≤ rem := Nat.div_mul_le_self _ _
      simp only [List.mem_append, List.mem_map, List.mem_range] at hc
      rcases hc with ⟨i, hi', rfl⟩ | hc
      · have : (i + 1) * item rem ≤ rem / item rem * item rem := Nat.mul_le_mul_right _ hi'
        rw [Nat.add_mul] at this
        simp only; omega
      · have h1 : 1 ≤ rem / item rem := (Nat.le_div_iff_mul_le hi).2 (by have := item_le h0; omega)
        have h2 : 1 ≤ rem / item rem * item rem := Nat.mul_pos h1 hi
        have := ih _ (by omega) _ c hc
        omega

theorem chunks_cover : ∀ (rem off k : Nat), off ≤ k → k < off + rem → ∃ c ∈ chunks rem off, c.1 ≤ k ∧ k < c.1 + c.2 := by
  intro rem
  induction rem using Nat.strongRecOn with
  | _ rem ih =>
    intro off k h1 h2
    rw [chunks]
    split
    · omega
    · rename_i h0
      have hi := item_pos rem
      have hle : rem / item rem * item rem ≤ rem := Nat.div_mul_le_self _ _
      have h3 : 1 ≤ rem / item rem := (Nat.le_div_iff_mul_le hi).2 (by have := item_le h0; omega)
      have h4 : 1 ≤ rem / item rem * item rem := Nat.mul_pos h3 hi
      by_cases hk : k < off + rem / item rem * item rem
      · refine ⟨(off + (k - off) / item rem * item rem, item rem), ?_, ?_⟩
        · simp only [List.mem_append, List.mem_map, List.mem_range]
          left
          refine ⟨(k - off) / item rem, ?_, rfl⟩
          exact Nat.div_lt_of_lt_mul (by rw [Nat.mul_comm]; omega)
        · have e1 := Nat.div_add_mod (k - off) (item rem)
          have e2 := Nat.mod_lt (k - off) hi
          rw [Nat.mul_comm] at e1
          simp only; omega
      · obtain ⟨c, hc, h⟩ := ih (rem - rem / item rem * item rem) (by omega) (off + rem / item rem * item rem) k (by omega) (by omega)
        exact ⟨c, List.mem_append_right _ hc, h⟩

/-- The bytes `[a, a + n)`. -/
def memR (a : Int) (n : Nat) (c : CL) : Prop := ∃ k : Nat, k < n ∧ c = .mem (a + k)

theorem memR_mem {a b : Int} {n : Nat} : memR a n (.mem b) ↔ a ≤ b ∧ b < a + n := by
  constructor
  · rintro ⟨k, hk, h⟩; cases h; omega
  · rintro ⟨h1, h2⟩; exact ⟨(b - a).toNat, by omega, by congr 1; omega⟩

/-- The temporaries of argument `i`. -/
def workOf (i : Nat) (c : CL) : Prop := ∃ j k, c = .var (.work i j) k

theorem memMov_list {e : Env} {i size : Nat} {d x : V} {a b : Int} (hd : ∀ j, d ≠ .work i (j + 2)) (hx : ∀ j, x ≠ .work i (j + 2))
    (hdis : a + size ≤ b ∨ b + size ≤ a) : ∀ (cs : List (Nat × Nat)) (s : State), (∀ c ∈ cs, c.1 + c.2 ≤ size) →
    PtrAt s (.var d) b → PtrAt s (.var x) a →
    ∃ s', exec e (cs.flatMap fun c =>
        [.mov (.var (.work i (c.1 + 2))) (.ind x c.1) c.2, .mov (.ind d c.1) (.var (.work i (c.1 + 2))) c.2]) s = some s' ∧
      Agree (fun c => memR b size c ∨ ∃ j k, c = .var (.work i (j + 2)) k) s s' ∧
      ∀ k : Nat, k < size → s' (.mem (b + k)) = s (.mem (a + k)) ∨
        ((∀ c ∈ cs, ¬ (c.1 ≤ k ∧ k < c.1 + c.2)) ∧ s' (.mem (b + k)) = s (.mem (b + k)))
  | [], s, _, _, _ => ⟨s, rfl, Agree.refl, fun k _ => .inr ⟨fun _ h => (List.not_mem_nil h).elim, rfl⟩⟩
  | c :: cs, s, hin, hb, ha => by
    have hc := hin c (List.mem_cons_self ..)
    obtain ⟨s1, e1, A1, v1⟩ := step_mov (e := e) (s := s) (d := .var (.work i (c.1 + 2))) (x := .ind x c.1) (n := c.2) rfl
      (loc_ind ha)
    have hb1 : PtrAt s1 (.var d) b := hb.agree A1 (by
      rintro k _ ⟨k', _, h⟩; simp only [Loc.at, CL.var.injEq] at h; exact hd _ h.1)
    have ha1 : PtrAt s1 (.var x) a := ha.agree A1 (by
      rintro k _ ⟨k', _, h⟩; simp only [Loc.at, CL.var.injEq] at h; exact hx _ h.1)
    obtain ⟨s2, e2, A2, v2⟩ := step_mov (e := e) (s := s1) (d := .ind d c.1) (x := .var (.work i (c.1 + 2))) (n := c.2)
      (loc_ind hb1) rfl
    have hb2 : PtrAt s2 (.var d) b := hb1.agree A2 (by
      rintro k _ ⟨k', _, h⟩; simp only [Loc.at, reduceCtorEq] at h)
    have ha2 : PtrAt s2 (.var x) a := ha1.agree A2 (by
      rintro k _ ⟨k', _, h⟩; simp only [Loc.at, reduceCtorEq] at h)
    obtain ⟨s', e3, A3, v3⟩ := memMov_list hd hx hdis cs s2 (fun c' h => hin c' (List.mem_cons_of_mem _ h)) hb2 ha2
    -- memory in `s1` is that of `s`
    have m1 : ∀ z, s1 (.mem z) = s (.mem z) := fun z => A1 _ (by rintro ⟨k, _, h⟩; simp only [Loc.at, reduceCtorEq] at h)
    have src2 : ∀ k : Nat, k < size → s2 (.mem (a + k)) = s (.mem (a + k)) := fun k hk =>
      (A2 _ (by rintro ⟨k', hk', h⟩; simp only [Loc.at, CL.mem.injEq] at h; omega)).trans (m1 _)
    refine ⟨s', ?_, ?_, ?_⟩
    · rw [List.flatMap_cons]
      exact exec_append_some (exec_cons_some e1 (exec_cons_some e2 rfl)) e3
    · refine Agree.trans (Agree.trans (A1.mono ?_) (A2.mono ?_)) A3
      · rintro z ⟨k, _, rfl⟩; exact .inr ⟨_, _, rfl⟩
      · rintro z ⟨k, hk, rfl⟩; exact .inl ⟨c.1 + k, by omega, by simp only [Loc.at, CL.mem.injEq]; omega⟩
    · intro k hk
      rcases v3 k hk with h | ⟨hn, h⟩
      · exact .inl (h.trans (src2 k hk))
      · by_cases hcov : c.1 ≤ k ∧ k < c.1 + c.2
        · left
          have := v2 (k - c.1) (by omega)
          simp only [Loc.at] at this
          have e4 : b + (c.1 : Int) + ((k - c.1 : Nat) : Int) = b + (k : Int) := by omega
          rw [e4] at this
          have h5 := v1 (k - c.1) (by omega)
          simp only [Loc.at] at h5
          have e5 : a + (c.1 : Int) + ((k - c.1 : Nat) : Int) = a + (k : Int) := by omega
          rw [e5] at h5
          rw [h, this, h5]
        · right
          refine ⟨?_, ?_⟩
          · intro c' hc'
            rcases List.mem_cons.1 hc' with rfl | h'
            · exact hcov
            · exact hn c' h'
          · rw [h, A2 _ ?_, m1]
            rintro ⟨k', hk', h'⟩; simp only [Loc.at, CL.mem.injEq] at h'; omega

/-- `lir_memory_mov` copies the bytes and writes nothing else but its temporaries. -/
theorem memMov_ok {e : Env} {s : State} {i size : Nat} {d x : V} {a b : Int} (hd : ∀ j, d ≠ .work i (j + 2))
    (hx : ∀ j, x ≠ .work i (j + 2)) (hdis : a + size ≤ b ∨ b + size ≤ a) (hb : PtrAt s (.var d) b) (ha : PtrAt s (.var x) a) :
    ∃ s', exec e (memMov i size d x) s = some s' ∧
      Agree (fun c => memR b size c ∨ ∃ j k, c = .var (.work i (j + 2)) k) s s' ∧
      ∀ k : Nat, k < size → s' (.mem (b + k)) = s (.mem (a + k)) := by
  obtain ⟨s', h1, h2, h3⟩ := memMov_list (e := e) hd hx hdis (chunks size 0) s
    (fun c hc => by have := chunks_in size 0 c hc; omega) hb ha
  refine ⟨s', h1, h2, fun k hk => ?_⟩
  rcases h3 k hk with h | ⟨hn, _⟩
  · exact h
  · obtain ⟨c, hc, h⟩ := chunks_cover size 0 k (by omega) (by omega)
    exact absurd h (hn c hc)

/-! ### Independent pieces of code -/

/-- A piece of emitted code, the bytes it may write, and what it is for. -/
structure Blk where
  ops : List Op
  W : CL → Prop
  Q : State → Prop

/-- From any state that has the bytes `S` as `s0` has them the piece runs, writes only its own bytes, and does what it is for;
what it is for is about its own bytes and `S`. -/
structure Blk.Ok (b : Blk) (e : Env) (S : CL → Prop) (s0 : State) : Prop where
  run : ∀ s, (∀ c, S c → s c = s0 c) → ∃ s', exec e b.ops s = some s' ∧ Agree b.W s s' ∧ b.Q s'
  sep : ∀ c, b.W c → ¬ S c
  loc : ∀ s s' : State, (∀ c, b.W c ∨ S c → s' c = s c) → b.Q s → b.Q s'

def Apart (b c : Blk) : Prop := ∀ x, b.W x → ¬ c.W x

/-- Pieces that write different bytes all do what they are for. -/
theorem run_blks {e : Env} {S : CL → Prop} {s0 : State} : ∀ (bs : List Blk), (∀ b ∈ bs, b.Ok e S s0) → bs.Pairwise Apart →
    ∀ s, (∀ c, S c → s c = s0 c) → ∃ s', exec e (bs.flatMap Blk.ops) s = some s' ∧
      Agree (fun c => ∃ b ∈ bs, b.W c) s s' ∧ (∀ c, S c → s' c = s0 c) ∧ ∀ b ∈ bs, b.Q s'
  | [], _, _, s, hS => ⟨s, rfl, Agree.refl, hS, fun _ h => by cases h⟩
  | b :: bs, hok, hp, s, hS => by
    rw [List.pairwise_cons] at hp
    have hb := hok b (List.mem_cons_self ..)
    obtain ⟨s1, e1, A1, q1⟩ := hb.run s hS
    have hS1 : ∀ c, S c → s1 c = s0 c := fun c hc => (A1 c fun h => hb.sep c h hc).trans (hS c hc)
    obtain ⟨s', e2, A2, hS2, q2⟩ := run_blks bs (fun b' h => hok b' (List.mem_cons_of_mem _ h)) hp.2 s1 hS1
    refine ⟨s', ?_, ?_, hS2, ?_⟩
    · rw [List.flatMap_cons]; exact exec_append_some e1 e2
    · exact (A1.mono fun c h => ⟨b, List.mem_cons_self .., h⟩).trans
        (A2.mono fun c ⟨b', h, h'⟩ => ⟨b', List.mem_cons_of_mem _ h, h'⟩)
    · intro b' hb'
      rcases List.mem_cons.1 hb' with rfl | h
      · refine hb.loc s1 s' ?_ q1
        rintro c (hc | hc)
        · exact A2 c fun ⟨b2, h2, h3⟩ => hp.1 b2 h2 c hc h3
        · rw [hS2 c hc, hS1 c hc]
      · exact q2 b' h

end Nature.Abi
