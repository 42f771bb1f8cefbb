import Verif.Archive.Walk

/-!
# Archives of the BSD format
-/

namespace Nature.Archive

open Spec (dec fill record)

/-- The name in the header of a BSD record. -/
abbrev mark (n : Nat) : List Nat := Spec.ascii "#1/" ++ dec n

theorem mark_eq (n : Nat) : mark n = 35 :: 49 :: 47 :: dec n := rfl

theorem fill_mark (n : Nat) : rtrim (fill 16 (mark n)) = mark n := by
  obtain ⟨s, d, e, hd⟩ := dec_last n
  rw [mark_eq, e]
  exact rtrim_fill 16 (35 :: 49 :: 47 :: s) _ (by omega)

theorem kind_mark (n : Nat) : memberKind (fill 16 (mark n)) = .regular := by
  unfold memberKind
  simp only [fill_mark]
  rw [mark_eq, if_neg (by simp), if_neg]
  simp [sym64, symdef]

theorem rtrimZero_zeros (name : List Nat) (k : Nat) (h0 : 0 ∉ name) :
    rtrimZero (name ++ List.replicate k 0) = name := by
  have h1 : ∀ (n : Nat) (l : List Nat),
      (List.replicate n 0 ++ l).dropWhile (· == 0) = l.dropWhile (· == 0) := by
    intro n l
    induction n with
    | zero => rfl
    | succ n ih => simp [List.replicate_succ, ih]
  unfold rtrimZero
  rw [List.reverse_append, List.reverse_replicate, h1]
  have : (name.reverse).dropWhile (· == 0) = name.reverse := by
    rcases hr : name.reverse with _ | ⟨x, xs⟩
    · rfl
    · have : x ∈ name := by rw [← List.mem_reverse, hr]; simp
      rw [List.dropWhile_cons_of_neg]
      simp only [beq_iff_eq]; rintro rfl; exact h0 this
  rw [this, List.reverse_reverse]

open Spec (BsdFits)

theorem walk_bsd (bytes pre table : List Nat) (ms : List (Spec.Member × Nat))
    (hf : ∀ p ∈ ms, BsdFits p)
    (hb : bytes = pre ++ ms.flatMap fun p => Spec.bsdRecord p.1 p.2) (fuel : Nat)
    (hfuel : bytes.length - pre.length < fuel) :
    walk bytes false table fuel pre.length = .ok (ms.map fun p => (p.1.name, p.1.content)) ∧
      ∀ t, findTable bytes false fuel pre.length t = .ok t := by
  induction ms generalizing pre fuel with
  | nil =>
    obtain ⟨n, rfl⟩ : ∃ n, fuel = n + 1 := ⟨fuel - 1, by omega⟩
    constructor
    · rw [walk, if_neg]
      · rfl
      · simp [hb]
    · intro t
      rw [findTable, if_neg]
      simp [hb]
  | cons p ms ih =>
    obtain ⟨n, rfl⟩ : ∃ n, fuel = n + 1 := ⟨fuel - 1, by omega⟩
    obtain ⟨m, k⟩ := p
    obtain ⟨h1, h0, hi, hc⟩ := hf (m, k) (by simp)
    simp only at h1 h0 hi hc
    have hms : ∀ x ∈ ms, BsdFits x := fun x hx => hf x (by simp [hx])
    have hn : (mark (m.name.length + k)).length ≤ 16 := by
      have := dec_length 9 (m.name.length + k) (by omega)
      rw [mark_eq]; simp; omega
    have hcl : (m.name ++ List.replicate k 0 ++ m.content).length < 10 ^ 10 := by
      simp; omega
    have hl := record_length (mark (m.name.length + k))
      (m.name ++ List.replicate k 0 ++ m.content) m.info m.extra hn hi hcl
    have hb' : bytes = pre ++ record (mark (m.name.length + k))
        (m.name ++ List.replicate k 0 ++ m.content) m.info m.extra ++
        ms.flatMap fun p => Spec.bsdRecord p.1 p.2 := by
      rw [hb]; simp [Spec.bsdRecord, mark]
    have hfu : bytes.length - (pre ++ record (mark (m.name.length + k))
        (m.name ++ List.replicate k 0 ++ m.content) m.info m.extra).length < n := by
      have := congrArg List.length hb'
      simp only [List.length_append] at this hl ⊢
      omega
    obtain ⟨iw, it⟩ := ih _ hms hb' n hfu
    constructor
    · have hh := header_length (mark (m.name.length + k))
        (m.name ++ List.replicate k 0 ++ m.content) m.info hn hi hcl
      have s1 : slice bytes (pre.length + 60) (m.name.length + k) =
          .ok (m.name ++ List.replicate k 0) := by
        refine slice_mid' bytes (pre ++ header (mark (m.name.length + k))
            (m.name ++ List.replicate k 0 ++ m.content) m.info) _
          (m.content ++ ((if (m.name ++ List.replicate k 0 ++ m.content).length % 2 = 1
            then [m.extra] else []) ++ ms.flatMap fun p => Spec.bsdRecord p.1 p.2)) _ _ ?_ ?_ ?_
        · rw [hb', record_eq, body]
          simp only [List.append_assoc]
        · rw [List.length_append, hh]
        · simp
      have s2 : slice bytes (pre.length + 60 + (m.name.length + k)) m.content.length =
          .ok m.content := by
        refine slice_mid' bytes (pre ++ header (mark (m.name.length + k))
            (m.name ++ List.replicate k 0 ++ m.content) m.info ++ (m.name ++ List.replicate k 0)) _
          ((if (m.name ++ List.replicate k 0 ++ m.content).length % 2 = 1
            then [m.extra] else []) ++ ms.flatMap fun p => Spec.bsdRecord p.1 p.2) _ _ ?_ ?_ rfl
        · rw [hb', record_eq, body]
          simp only [List.append_assoc]
        · rw [List.length_append, List.length_append, hh]
          simp
      have hr := recordAt_record pre (ms.flatMap fun p => Spec.bsdRecord p.1 p.2)
        (mark (m.name.length + k)) (m.name ++ List.replicate k 0 ++ m.content) m.info m.extra
        false (Or.inl rfl) hn hi hcl
      rw [← hb'] at hr
      have hcl2 : (m.name ++ List.replicate k 0 ++ m.content).length =
          m.name.length + k + m.content.length := by simp; omega
      have hblen : pre.length + 60 + (m.name.length + k) ≤ bytes.length := by
        unfold slice at s1
        split at s1
        · assumption
        · simp at s1
      have hmn : memberName bytes ⟨fill 16 (mark (m.name.length + k)), pre.length + 60,
          (m.name ++ List.replicate k 0 ++ m.content).length,
          pre.length + (record (mark (m.name.length + k))
            (m.name ++ List.replicate k 0 ++ m.content) m.info m.extra).length,
          .regular, true⟩ table false =
          .ok ⟨some m.name, pre.length + 60 + (m.name.length + k), m.content.length⟩ := by
        unfold memberName
        simp only [fill_mark]
        rw [if_neg (by simp), if_pos (by rw [mark_eq]; simp [isBsd])]
        have hd : decimal ((mark (m.name.length + k)).drop 3) = some (m.name.length + k) :=
          decimal_dec _ (by omega)
        simp only [hd, Bool.false_eq_true, if_false]
        rw [if_neg (by omega), if_neg (by omega), s1]
        simp only [rtrimZero_zeros _ _ h0]
        have : copyName m.name = .ok m.name := by simp [copyName, h1, h0]
        simp only [this, hcl2]
        congr 2; omega
      rw [walk, if_pos (by omega), hr]
      simp only [kind_mark, hmn, Bool.false_eq_true, if_false, s2]
      rw [List.length_append] at iw
      simp only [iw, List.map_cons]
    · intro t
      have := findTable_step pre (ms.flatMap fun p => Spec.bsdRecord p.1 p.2)
        (mark (m.name.length + k)) (m.name ++ List.replicate k 0 ++ m.content) m.info m.extra n t
        false (Or.inl rfl) hn hi hcl (by rw [kind_mark]; simp)
      rw [← hb'] at this
      rw [this]
      exact it t

end Nature.Archive
