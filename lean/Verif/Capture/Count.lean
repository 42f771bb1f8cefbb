import Verif.Capture.Program

namespace Nature.Capture

/-! ## How much a function can capture -/

/-- Every function has captured at most `n` variables more. -/
def LenLe (n : Nat) : List Frame → List Frame → Prop
  | [], [] => True
  | f :: fs, g :: gs => g.frees.length ≤ f.frees.length + n ∧ LenLe n fs gs
  | _, _ => False

theorem LenLe.refl (fs : List Frame) : LenLe 0 fs fs := by
  induction fs with
  | nil => trivial
  | cons f fs ih => exact ⟨Nat.le_refl _, ih⟩

theorem LenLe.trans {a b : Nat} : {fs gs hs : List Frame} → LenLe a fs gs → LenLe b gs hs →
    LenLe (a + b) fs hs
  | [], [], [], _, _ => trivial
  | _ :: _, _ :: _, _ :: _, x, y => ⟨by have := x.1; have := y.1; omega, x.2.trans y.2⟩
  | [], _ :: _, _, x, _ => x.elim
  | _ :: _, [], _, x, _ => x.elim
  | [], [], _ :: _, _, y => y.elim
  | _ :: _, _ :: _, [], _, y => y.elim

theorem LenLe.mono {a b : Nat} (h : a ≤ b) : {fs gs : List Frame} → LenLe a fs gs → LenLe b fs gs
  | [], [], _ => trivial
  | _ :: _, _ :: _, x => ⟨by have := x.1; omega, LenLe.mono h x.2⟩
  | [], _ :: _, x => x.elim
  | _ :: _, [], x => x.elim

theorem LenLe.tail {n : Nat} {fs gs : List Frame} (h : LenLe n fs gs) : LenLe n fs.tail gs.tail := by
  cases fs with
  | nil =>
    cases gs with
    | nil => exact h
    | cons g gs => exact h.elim
  | cons f fs =>
    cases gs with
    | nil => exact h.elim
    | cons g gs => exact h.2

theorem pushFree_len (f : Frame) (b : Bool) (i id : Nat) (k : Kind) :
    (pushFree f b i id k).1.frees.length ≤ f.frees.length + 1 := by
  unfold pushFree
  split
  · exact Nat.le_succ _
  · simp

theorem resolveFree_len (x : Name) (fs : List Frame) : LenLe 1 fs (resolveFree x fs).1 := by
  induction fs with
  | nil => unfold resolveFree; trivial
  | cons f ps ih =>
    cases ps with
    | nil => unfold resolveFree; exact (LenLe.refl _).mono (by omega)
    | cons p rest =>
      have hr : LenLe 1 (p :: rest) (p :: rest) := (LenLe.refl _).mono (by omega)
      unfold resolveFree
      cases hl : lookup x p.locals with
      | some l =>
        simp only [hl]
        split
        · exact (LenLe.refl _).mono (by omega)
        · exact ⟨pushFree_len _ _ _ _ _, hr⟩
      | none =>
        simp only [hl]
        generalize resolveFree x (p :: rest) = r at ih
        obtain ⟨ps', o⟩ := r
        cases o with
        | none => exact ⟨Nat.le_succ _, ih⟩
        | some h =>
          dsimp only
          split
          · exact ⟨pushFree_len _ _ _ _ _, ih⟩
          · exact ⟨Nat.le_succ _, ih⟩

theorem ident_len (x : Name) (s : State) : LenLe 1 s.frames (ident x s).2.frames := by
  have h := resolveFree_len x s.frames
  have hr : LenLe 1 s.frames s.frames := (LenLe.refl _).mono (by omega)
  unfold ident
  split
  · exact hr
  · split
    · exact hr
    · split
      · next e => rw [e] at h; exact h
      · next e => rw [e] at h; exact h

theorem localNew_len (k : Kind) (x : Name) (s : State) : LenLe 0 s.frames (localNew k x s).frames := by
  unfold localNew
  split
  · exact LenLe.refl _
  · next h => rw [h]; exact ⟨Nat.le_refl _, LenLe.refl _⟩

theorem beginScope_len (s : State) : LenLe 0 s.frames (beginScope s).frames := by
  unfold beginScope
  split
  · exact LenLe.refl _
  · next h => rw [h]; exact ⟨Nat.le_refl _, LenLe.refl _⟩

theorem addParams_len (ps : List Name) (s : State) : LenLe 0 s.frames (addParams ps s).frames := by
  induction ps generalizing s with
  | nil => exact LenLe.refl _
  | cons p ps ih => exact (localNew_len .var p s).trans (ih _)

theorem endScope_len {s s' : State} (h : endScope s = .ok s') : LenLe 0 s.frames s'.frames := by
  unfold endScope at h
  split at h
  · cases h; exact LenLe.refl _
  · next e =>
    obtain ⟨r, _, h2⟩ := bind_ok h
    cases h2
    rw [e]
    exact ⟨Nat.le_refl _, LenLe.refl _⟩

theorem leave_len (id : Nat) (caps : List Cap) (s : State) :
    LenLe 0 s.frames.tail (leave id caps s).frames := by
  unfold leave
  split
  · next e => rw [e]; exact ⟨Nat.le_refl _, LenLe.refl _⟩
  · exact LenLe.refl _

/-- A function literal captures no more variables than it uses names. -/
theorem analyze_len (c : Code) : ∀ {s : State} {out : Out} {s' : State},
    analyze c s = .ok (out, s') →
    LenLe (names c) s.frames s'.frames ∧ ∀ n, Brief n c → out.Captures n := by
  induction c with
  | nil => intro s out s' h; cases h; exact ⟨LenLe.refl _, fun _ _ => trivial⟩
  | use x k ih =>
    intro s out s' h
    obtain ⟨q, h1, h2⟩ := bind_ok h
    cases h2
    obtain ⟨i1, i2⟩ := ih h1
    exact ⟨(ident_len x s).trans i1, i2⟩
  | decl x k ih =>
    intro s out s' h
    rw [analyze] at h
    split at h
    · cases h
    obtain ⟨q, h1, h2⟩ := bind_ok h
    cases h2
    obtain ⟨i1, i2⟩ := ih h1
    exact ⟨((localNew_len .var x s).trans i1).mono (by simp [names]), i2⟩
  | const x k ih =>
    intro s out s' h
    obtain ⟨q, h1, h2⟩ := bind_ok h
    cases h2
    obtain ⟨i1, i2⟩ := ih h1
    exact ⟨((localNew_len .const x s).trans i1).mono (by simp [names]), i2⟩
  | block b k ihb ihk =>
    intro s out s' h
    obtain ⟨r, h1, h⟩ := bind_ok h
    obtain ⟨s2, h2, h⟩ := bind_ok h
    obtain ⟨q, h3, h4⟩ := bind_ok h
    cases h4
    obtain ⟨b1, b2⟩ := ihb h1
    obtain ⟨k1, k2⟩ := ihk h3
    refine ⟨((((beginScope_len s).trans b1).trans (endScope_len h2)).trans k1).mono ?_, ?_⟩
    · simp [names]
    · exact fun n hn => ⟨b2 n hn.1, k2 n hn.2⟩
  | fn ps b k ihb ihk =>
    intro s out s' h
    obtain ⟨r, h1, h⟩ := bind_ok h
    obtain ⟨s2, h2, h⟩ := bind_ok h
    obtain ⟨q, h3, h4⟩ := bind_ok h
    cases h4
    obtain ⟨b1, b2⟩ := ihb h1
    obtain ⟨k1, k2⟩ := ihk h3
    have e1 : LenLe (names b) (⟨[], 0, []⟩ :: s.frames) r.2.frames := by
      have := (((localNew_len .fn .lambda (enter s)).trans (beginScope_len _)).trans
        (addParams_len ps _)).trans b1
      exact this.mono (by omega)
    have e2 := e1.trans (endScope_len h2)
    refine ⟨?_, ?_⟩
    · exact (((e2.tail).trans (leave_len _ _ _)).trans k1).mono (by simp [names])
    · intro n hn
      refine ⟨?_, b2 n hn.2.1, k2 n hn.2.2⟩
      unfold currentCaptures
      split
      · simp
      · next f fs e =>
        rw [e] at e1
        have h5 := e1.1
        have h6 : (captures f.frees).length ≤ f.frees.length := by
          unfold captures
          rw [List.length_map]
          exact List.length_filter_le _ _
        have := hn.1
        simp only [List.length_nil] at h5
        omega

theorem analyzeAll_brief {p : List Fun} {n : Nat} (hb : ∀ f ∈ p, Brief n f.body) :
    ∀ {s : State} {os : List Out} {s' : State}, analyzeAll p s = .ok (os, s') →
    ∀ o ∈ os, o.Captures n := by
  induction p with
  | nil => intro s os s' h; cases h; intro o ho; cases ho
  | cons f p ih =>
    intro s os s' h
    obtain ⟨r, h1, h⟩ := bind_ok h
    obtain ⟨q, h2, h3⟩ := bind_ok h
    cases h3
    obtain ⟨r', h4, h5⟩ := bind_ok h1
    obtain ⟨s3, _, h6⟩ := bind_ok h5
    cases h6
    intro o ho
    rcases List.mem_cons.1 ho with rfl | ho
    · exact (analyze_len f.body h4).2 n (hb f (List.mem_cons_self ..))
    · exact ih (fun g hg => hb g (List.mem_cons_of_mem _ hg)) h2 o ho

end Nature.Capture
