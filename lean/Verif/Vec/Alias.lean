import Verif.Vec.History
/-! Programs that also take slices: the aliasing invariant of reachable states. -/
namespace Nature.Vec
open Nature

/-- Operations of a program that may also take slices. -/
inductive SOp where
  | base (op : Op)
  | slice (i : Nat) (start fin : Int)

/-- One operation; a slice becomes a new variable. -/
def sStep (esz : Nat) (junk : List (BitVec 8)) (w : World) : SOp → Res (World × Out)
  | .base op => implStep esz junk w op
  | .slice i start fin =>
    match w.vecs[i]? with
    | some v => observe w (slice v start fin) fun u => (⟨w.mem, w.vecs ++ [u]⟩, .unit)
    | none => .ok (w, .badVar)

/-- Limits of the runtime (see `Fits`). -/
def OpFits (esz : Nat) (w : World) : SOp → Prop
  | .base (.new _ x) => x.length = esz ∧ esz ≤ 8
  | .base (.append i j) => ∀ v u, w.vecs[i]? = some v → w.vecs[j]? = some u → v.len + u.len + 1 < 2 ^ 31
  | _ => True

/-- States a program can reach from the empty one. -/
inductive Reach (esz : Nat) (junk : List (BitVec 8)) : World → Prop where
  | init : Reach esz junk ⟨[], []⟩
  | step {w w' : World} {op : SOp} {o : Out} : Reach esz junk w → OpFits esz w op → sStep esz junk w op = .ok (w', o) → Reach esz junk w'

/-- Unused capacity of one header never overlaps the storage of another. -/
structure AInv (w : World) : Prop where
  wf : ∀ (i : Nat) v, w.vecs[i]? = some v → WF w.mem v
  bound : ∀ (i : Nat) v b, w.vecs[i]? = some v → v.blk = some b → b < w.mem.length
  spare : ∀ (i j : Nat) v u, w.vecs[i]? = some v → w.vecs[j]? = some u → i ≠ j → v.blk = u.blk → ∀ b, v.blk = some b →
    ∀ c, v.off + v.len ≤ c → c < v.off + v.cap → u.off ≤ c → c < u.off + u.cap → False

theorem AInv.update {w : World} (h : AInv w) {i : Nat} {v v' : Vec} {m' : Mem} (hv : w.vecs[i]? = some v) (hw : WF m' v')
    (hb : (v'.blk = v.blk ∧ v'.off = v.off ∧ v'.cap = v.cap ∧ v.len ≤ v'.len ∧ w.mem.length ≤ m'.length) ∨
      (v'.blk = some w.mem.length ∧ w.mem.length < m'.length))
    (hf : ∀ b c x, b < w.mem.length → load w.mem (some b) c = some x → ∃ y, load m' (some b) c = some y) :
    AInv ⟨m', w.vecs.set i v'⟩ := by
  have hi := (List.getElem?_eq_some_iff.1 hv).1
  have hml : w.mem.length ≤ m'.length := by rcases hb with h | h <;> omega
  refine ⟨?_, ?_, ?_⟩
  · intro k u hu
    simp only at hu
    by_cases hk : k = i
    · subst hk
      rw [List.getElem?_set_self hi] at hu; cases hu; exact hw
    · rw [List.getElem?_set_ne (by omega)] at hu
      refine (h.wf k u hu).congr ?_
      intro c x hx
      cases hbu : u.blk with
      | none => rw [hbu] at hx; cases hx
      | some b => rw [hbu] at hx; exact hf b c x (load_lt hx) hx
  · intro k u b hu hbu
    simp only at hu ⊢
    by_cases hk : k = i
    · subst hk
      rw [List.getElem?_set_self hi] at hu; cases hu
      rcases hb with hb | hb
      · rw [hb.1] at hbu; have := h.bound k v b hv hbu; omega
      · rw [hb.1] at hbu; cases hbu; exact hb.2
    · rw [List.getElem?_set_ne (by omega)] at hu
      have := h.bound k u b hu hbu; omega
  · intro k l u t hu ht hkl e b hbu c h1 h2 h3 h4
    simp only at hu ht
    by_cases hk : k = i
    · subst hk
      rw [List.getElem?_set_self hi] at hu; cases hu
      rw [List.getElem?_set_ne (by omega)] at ht
      rcases hb with ⟨e1, e2, e3, e4, _⟩ | ⟨e1, _⟩
      · exact h.spare k l v t hv ht hkl (by rw [← e1, e]) b (by rw [← e1]; exact hbu) c (by omega) (by omega) h3 h4
      · have := h.bound l t w.mem.length ht (by rw [← e, e1]); omega
    · rw [List.getElem?_set_ne (by omega)] at hu
      by_cases hl : l = i
      · subst hl
        rw [List.getElem?_set_self hi] at ht; cases ht
        rcases hb with ⟨e1, e2, e3, e4, _⟩ | ⟨e1, _⟩
        · exact h.spare k l u v hu hv hkl (by rw [e, e1]) b hbu c (by omega) (by omega) (by omega) (by omega)
        · have := h.bound k u w.mem.length hu (by rw [e, e1]); omega
      · rw [List.getElem?_set_ne (by omega)] at ht
        exact h.spare k l u t hu ht hkl e b hbu c h1 h2 h3 h4

theorem AInv.add {w : World} (h : AInv w) {v' : Vec} {m' : Mem} (hw : WF m' v') (hml : w.mem.length ≤ m'.length)
    (hb : v'.blk = none ∨ (v'.blk = some w.mem.length ∧ w.mem.length < m'.length))
    (hf : ∀ b j, b ≠ some w.mem.length → load m' b j = load w.mem b j) : AInv ⟨m', w.vecs ++ [v']⟩ := by
  refine ⟨?_, ?_, ?_⟩
  · intro k u hu
    simp only [getElem?_snoc] at hu
    by_cases hk : k < w.vecs.length
    · rw [if_pos hk] at hu
      refine (h.wf k u hu).congr ?_
      intro c x hx
      refine ⟨x, ?_⟩
      rw [hf, hx]
      intro hbu
      have := h.bound k u _ hu hbu
      omega
    · rw [if_neg hk] at hu
      split at hu
      · cases hu; exact hw
      · cases hu
  · intro k u b hu hbu
    simp only [getElem?_snoc] at hu ⊢
    by_cases hk : k < w.vecs.length
    · rw [if_pos hk] at hu
      have := h.bound k u b hu hbu; omega
    · rw [if_neg hk] at hu
      split at hu
      · cases hu
        rcases hb with hb | hb
        · rw [hb] at hbu; cases hbu
        · rw [hb.1] at hbu; cases hbu; exact hb.2
      · cases hu
  · intro k l u t hu ht hkl e b hbu c h1 h2 h3 h4
    simp only [getElem?_snoc] at hu ht
    have key : ∀ (k : Nat) (u : Vec), w.vecs[k]? = some u → u.blk = some b → v'.blk = some b → False := by
      intro k u hu e1 e2
      have := h.bound k u b hu e1
      rcases hb with hb | hb
      · rw [hb] at e2; cases e2
      · rw [hb.1] at e2; cases e2; omega
    by_cases hk : k < w.vecs.length
    · rw [if_pos hk] at hu
      by_cases hl : l < w.vecs.length
      · rw [if_pos hl] at ht
        exact h.spare k l u t hu ht hkl e b hbu c h1 h2 h3 h4
      · rw [if_neg hl] at ht
        split at ht
        · cases ht; exact key k u hu hbu (by rw [← e]; exact hbu)
        · cases ht
    · rw [if_neg hk] at hu
      split at hu
      · cases hu
        by_cases hl : l < w.vecs.length
        · rw [if_pos hl] at ht
          exact key l t ht (by rw [← e]; exact hbu) hbu
        · rw [if_neg hl] at ht
          split at ht
          · omega
          · cases ht
      · cases hu

theorem AInv.sameVecs {w : World} (h : AInv w) {m' : Mem} (hm : m'.length = w.mem.length)
    (hf : ∀ b c x, load w.mem b c = some x → ∃ y, load m' b c = some y) : AInv ⟨m', w.vecs⟩ :=
  ⟨fun i v hv => (h.wf i v hv).congr fun c x hx => hf _ c x hx, fun i v b hv hb => by rw [hm]; exact h.bound i v b hv hb, h.spare⟩

theorem slice_spec (v : Vec) (start fin : Int) :
    let e := if fin = -1 then (v.len : Int) else fin
    (0 ≤ start ∧ start ≤ e ∧ e ≤ v.len →
      slice v start fin = .ok ⟨v.blk, v.off + start.toNat, (e - start).toNat, (e - start).toNat⟩) ∧
    (¬ (0 ≤ start ∧ start ≤ e ∧ e ≤ v.len) → slice v start fin = .throws) := by
  simp only
  unfold slice
  simp only
  generalize (if fin = -1 then (v.len : Int) else fin) = e
  constructor
  · rintro ⟨h1, h2, h3⟩
    rw [if_neg (by omega), if_neg (by omega)]
  · intro h
    by_cases h1 : start > v.len ∨ e > v.len ∨ start < 0 ∨ e < 0
    · rw [if_pos h1]
    · rw [if_neg h1, if_pos (by omega)]

theorem AInv.slice {w : World} (h : AInv w) {i : Nat} {v u : Vec} (hv : w.vecs[i]? = some v)
    (hb : u.blk = v.blk) (h1 : v.off ≤ u.off) (h2 : u.off + u.cap ≤ v.off + v.len) (h3 : u.cap = u.len) : AInv ⟨w.mem, w.vecs ++ [u]⟩ := by
  have hwv := h.wf i v hv
  have hi := (List.getElem?_eq_some_iff.1 hv).1
  refine ⟨?_, ?_, ?_⟩
  · intro k t ht
    simp only [getElem?_snoc] at ht
    split at ht
    · exact h.wf k t ht
    · split at ht
      · cases ht
        refine ⟨by omega, fun c hc => ?_⟩
        obtain ⟨x, hx⟩ := hwv.2 (u.off - v.off + c) (by have := hwv.1; omega)
        refine ⟨x, ?_⟩
        show load w.mem u.blk _ = _
        rw [hb, ← hx]; congr 1; omega
      · cases ht
  · intro k t b ht hbt
    simp only [getElem?_snoc] at ht
    split at ht
    · exact h.bound k t b ht hbt
    · split at ht
      · cases ht; rw [hb] at hbt; exact h.bound i v b hv hbt
      · cases ht
  · intro k l t s ht hs hkl e b hbt c c1 c2 c3 c4
    simp only [getElem?_snoc] at ht hs
    by_cases hk : k < w.vecs.length
    · rw [if_pos hk] at ht
      by_cases hl : l < w.vecs.length
      · rw [if_pos hl] at hs
        exact h.spare k l t s ht hs hkl e b hbt c c1 c2 c3 c4
      · rw [if_neg hl] at hs
        split at hs
        · cases hs
          by_cases hki : k = i
          · subst hki; rw [hv] at ht; cases ht; omega
          · have := hwv.1
            exact h.spare k i t v ht hv hki (by rw [e, hb]) b hbt c c1 c2 (by omega) (by omega)
        · cases hs
    · rw [if_neg hk] at ht
      split at ht
      · cases ht; omega
      · cases ht

theorem set_self {α} {l : List α} {i : Nat} {v : α} (hv : l[i]? = some v) : l.set i v = l := by
  apply List.ext_getElem?
  intro k
  by_cases hk : k = i
  · subst hk; rw [List.getElem?_set_self ((List.getElem?_eq_some_iff.1 hv).1), hv]
  · rw [List.getElem?_set_ne (by omega)]

/-- A step never aborts or runs into undefined behaviour and keeps the aliasing invariant. -/
theorem sStep_inv {esz : Nat} {junk : List (BitVec 8)} {w : World} (h : AInv w) (op : SOp) (hf : OpFits esz w op) :
    ∃ w' o, sStep esz junk w op = .ok (w', o) ∧ AInv w' := by
  cases op with
  | slice i start fin =>
    unfold sStep
    cases hv : w.vecs[i]? with
    | none => exact ⟨w, _, by simp only [hv]; rfl, h⟩
    | some v =>
      obtain ⟨h1, h2⟩ := slice_spec v start fin
      by_cases hc : 0 ≤ start ∧ start ≤ (if fin = -1 then (v.len : Int) else fin) ∧ (if fin = -1 then (v.len : Int) else fin) ≤ v.len
      · refine ⟨_, _, by simp only [hv, h1 hc, observe]; rfl, ?_⟩
        refine h.slice hv rfl (by simp) ?_ rfl
        simp only
        generalize (if fin = -1 then (v.len : Int) else fin) = e at hc
        omega
      · exact ⟨w, _, by simp only [hv, h2 hc, observe]; rfl, h⟩
  | base op =>
    unfold sStep
    cases op with
    | new len x =>
      obtain ⟨h1, h2⟩ := new_spec w.mem esz junk len x hf.1 hf.2
      by_cases hl : len < 0
      · exact ⟨w, _, by simp only [implStep, h1 hl, observe]; rfl, h⟩
      · obtain ⟨m', v', e, hw, hs, hb, hm, hfr⟩ := h2 (by omega)
        exact ⟨_, _, by simp only [implStep, e, observe]; rfl, h.add hw (by omega) (Or.inr ⟨hb, by omega⟩) hfr⟩
    | cap c =>
      obtain ⟨h1, h2⟩ := capNew_spec w.mem esz c
      by_cases hl : c < 0
      · exact ⟨w, _, by simp only [implStep, h1 hl, observe]; rfl, h⟩
      · obtain ⟨m', v', e, hw, hs, _, _, hb, hfr⟩ := h2 (by omega)
        refine ⟨_, _, by simp only [implStep, e, observe]; rfl, h.add hw ?_ ?_ hfr⟩
        · rcases hb with ⟨_, hb⟩ | hb
          · rw [hb]; exact Nat.le_refl _
          · omega
        · rcases hb with ⟨hb, _⟩ | hb
          · exact Or.inl hb
          · exact Or.inr ⟨hb.1, by omega⟩
    | push i x =>
      cases hv : w.vecs[i]? with
      | none => exact ⟨w, _, by simp only [implStep, hv]; rfl, h⟩
      | some v =>
        obtain ⟨xs, hsh⟩ := (h.wf i v hv).shows
        obtain ⟨m', v', e, hw', hs', hfr⟩ := push_spec (esz := esz) (x := x) (h.wf i v hv) hsh
        refine ⟨_, _, by simp only [implStep, hv, e, observe]; rfl, h.update hv hw' ?_ ?_⟩
        · rcases hfr with ⟨_, hb, hm, _⟩ | ⟨_, hb, hm, _⟩
          · left; rw [hb]; exact ⟨rfl, rfl, rfl, by simp, by omega⟩
          · right; exact ⟨hb, by omega⟩
        · intro b c y hb hy
          rcases hfr with ⟨_, _, _, hm⟩ | ⟨_, _, _, hm⟩
          · rw [hm]; split
            · exact ⟨_, rfl⟩
            · exact ⟨y, hy⟩
          · exact ⟨y, by rw [hm _ _ (by simp; omega)]; exact hy⟩
    | get i idx =>
      cases hv : w.vecs[i]? with
      | none => exact ⟨w, _, by simp only [implStep, hv]; rfl, h⟩
      | some v =>
        obtain ⟨xs, hsh⟩ := (h.wf i v hv).shows
        cases hx : xs[idx]? with
        | none => exact ⟨w, _, by simp only [implStep, hv, access_spec hsh, hx, observe]; rfl, h⟩
        | some x => exact ⟨w, _, by simp only [implStep, hv, access_spec hsh, hx, observe]; rfl, h⟩
    | set i idx x =>
      cases hv : w.vecs[i]? with
      | none => exact ⟨w, _, by simp only [implStep, hv]; rfl, h⟩
      | some v =>
        obtain ⟨xs, hsh⟩ := (h.wf i v hv).shows
        by_cases hi : idx < v.len
        · obtain ⟨m', e, l, hm⟩ := assign_spec hsh hi x
          refine ⟨_, _, by simp only [implStep, hv, e, observe]; rfl, h.sameVecs l ?_⟩
          intro b c y hy
          rw [hm]; split
          · exact ⟨_, rfl⟩
          · exact ⟨y, hy⟩
        · exact ⟨w, _, by simp only [implStep, hv, assign_throws (m := w.mem) (v := v) (i := idx) (by omega) x, observe]; rfl, h⟩
    | append i j =>
      cases hv : w.vecs[i]? with
      | none => exact ⟨w, _, by simp only [implStep, hv]; rfl, h⟩
      | some v =>
        cases hv2 : w.vecs[j]? with
        | none => exact ⟨w, _, by simp only [implStep, hv, hv2]; rfl, h⟩
        | some u =>
          obtain ⟨xs, hsh⟩ := (h.wf i v hv).shows
          obtain ⟨ys, hsh2⟩ := (h.wf j u hv2).shows
          have h31 : v.len + u.len + 1 < 2 ^ 31 := hf v u hv hv2
          by_cases hij : i = j
          · subst hij
            rw [hv] at hv2; cases hv2
            obtain ⟨m', v', e, hw', hs', hfr⟩ := appendSelf_spec (esz := esz) (h.wf i v hv) hsh h31
            refine ⟨_, _, by simp only [implStep, hv, e, observe, if_pos]; rfl, h.update hv hw' ?_ ?_⟩
            · rcases hfr with ⟨hb, hm, _⟩ | ⟨hb, hm, _⟩
              · left; rw [hb]; exact ⟨rfl, rfl, rfl, by simp, by omega⟩
              · right; exact ⟨hb, by omega⟩
            · intro b c y hb hy
              rcases hfr with ⟨_, _, hm⟩ | ⟨_, _, hm⟩
              · rw [hm]; split
                · exact ⟨_, List.getElem?_eq_getElem (by have := hsh.1; omega)⟩
                · exact ⟨y, hy⟩
              · exact ⟨y, by rw [hm _ _ (by simp; omega)]; exact hy⟩
          · obtain ⟨m', v', e, hw', hs', hfr⟩ := append_spec (esz := esz) (h.wf i v hv) hsh hsh2 h31
            refine ⟨_, _, by simp only [implStep, hv, hv2, e, observe, if_neg hij]; rfl, h.update hv hw' ?_ ?_⟩
            · rcases hfr with ⟨_, hb, hm, _⟩ | ⟨_, hb, hm, _⟩
              · left; rw [hb]; exact ⟨rfl, rfl, rfl, by simp, by omega⟩
              · right; exact ⟨hb, by omega⟩
            · intro b c y hb hy
              rcases hfr with ⟨_, _, _, hm⟩ | ⟨_, _, _, hm⟩
              · rw [hm]; split
                · exact ⟨_, List.getElem?_eq_getElem (by have := hsh2.1; omega)⟩
                · exact ⟨y, hy⟩
              · exact ⟨y, by rw [hm _ _ (by simp; omega)]; exact hy⟩
    | concat i j =>
      cases hv : w.vecs[i]? with
      | none => exact ⟨w, _, by simp only [implStep, hv]; rfl, h⟩
      | some v =>
        cases hv2 : w.vecs[j]? with
        | none => exact ⟨w, _, by simp only [implStep, hv, hv2]; rfl, h⟩
        | some u =>
          obtain ⟨xs, hsh⟩ := (h.wf i v hv).shows
          obtain ⟨ys, hsh2⟩ := (h.wf j u hv2).shows
          obtain ⟨m', v', e, hw', hs', hb, hm1, hm2, hfr⟩ := concat_spec (esz := esz) hsh hsh2
          refine ⟨_, _, by simp only [implStep, hv, hv2, e, observe]; rfl, h.add hw' (by omega) ?_ hfr⟩
          rcases hb with hb | hb
          · exact Or.inl hb.1
          · exact Or.inr ⟨hb.1, by omega⟩
    | copy i j =>
      cases hv : w.vecs[i]? with
      | none => exact ⟨w, _, by simp only [implStep, hv]; rfl, h⟩
      | some v =>
        cases hv2 : w.vecs[j]? with
        | none => exact ⟨w, _, by simp only [implStep, hv, hv2]; rfl, h⟩
        | some u =>
          obtain ⟨xs, hsh⟩ := (h.wf i v hv).shows
          obtain ⟨ys, hsh2⟩ := (h.wf j u hv2).shows
          obtain ⟨m', e, l, hs', hm⟩ := copy_spec hsh hsh2
          refine ⟨_, _, by simp only [implStep, hv, hv2, e, observe]; rfl, h.sameVecs l ?_⟩
          intro b c y hy
          rw [hm]; split
          · exact ⟨_, List.getElem?_eq_getElem (by omega)⟩
          · exact ⟨y, hy⟩
    | len i =>
      cases hv : w.vecs[i]? with
      | none => exact ⟨w, _, by simp only [implStep, hv]; rfl, h⟩
      | some v => exact ⟨w, _, by simp only [implStep, hv]; rfl, h⟩

theorem Reach.inv {esz : Nat} {junk : List (BitVec 8)} {w : World} (h : Reach esz junk w) : AInv w := by
  induction h with
  | init => exact ⟨by simp, by simp, by simp⟩
  | step _ hf he ih =>
    obtain ⟨w1, o1, e1, h1⟩ := sStep_inv (junk := junk) ih _ hf
    rw [e1] at he
    cases he; exact h1

/-- Growing one header in a state satisfying the invariant leaves what every other header shows. -/
theorem AInv.others {w : World} (h : AInv w) {i j : Nat} {v u : Vec} {m' : Mem} {k : Nat} {ys zs : List Elem}
    (hv : w.vecs[i]? = some v) (hu : w.vecs[j]? = some u) (hij : i ≠ j) (hk : v.len + k ≤ v.cap) (hs : Shows w.mem u ys)
    (hm : ∀ b c, load m' b c = if b = v.blk ∧ v.off + v.len ≤ c ∧ c < v.off + v.len + k then zs[c - (v.off + v.len)]? else load w.mem b c) :
    Shows m' u ys := by
  refine hs.congr fun c h1 h2 => ?_
  rw [hm, if_neg]
  rintro ⟨e, c1, c2⟩
  have hwu := (h.wf j u hu).1
  cases hb : v.blk with
  | none =>
    obtain ⟨x, hx⟩ := (h.wf i v hv).2 (v.len) (by omega)
    rw [hb] at hx; cases hx
  | some b => exact h.spare i j v u hv hu hij e.symm b hb c c1 (by omega) h1 (by omega)

end Nature.Vec
