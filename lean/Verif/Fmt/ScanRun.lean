import Verif.Fmt.ScanLemmas
import Verif.Fmt.ScanSpec
namespace Nature.Fmt

theorem scanDec_of_digits {l rest : List Byte} {n cnt : Nat} (h : Digits 10 l n) (hr : NoDigit rest) :
    scanDec 0 cnt 0 false (l ++ rest) = (wrapS 64 n, true, rest) := by
  obtain ⟨h1, h2⟩ := value_fold l 0 n h.2
  have h0 : wrapS 64 0 = 0 := by decide
  have := scanDec_digits l rest cnt 0 false h1 hr (Or.inl h.1)
  rw [h0] at this
  rw [this]
  have hc := fold_cast 10 l 0
  rw [h2] at hc
  rw [show (n : Int) = _ from hc.symm]
  rfl

theorem scanHex_of_digits {l rest : List Byte} {n cnt : Nat} (h : Digits 16 l n) (hr : NoHex rest) :
    scanHex 0 cnt 0 false (l ++ rest) = (n % 2 ^ 64, true, rest) := by
  obtain ⟨h1, h2⟩ := value_fold l 0 n h.2
  have := scanHex_digits l rest cnt 0 false h1 hr (Or.inl h.1)
  rw [h2] at this
  exact this

theorem digits_head {b : Nat} {d : List Byte} {n : Nat} (h : Digits b d n) : ∃ c t, d = c :: t ∧ ∃ k, digitVal c = some k := by
  obtain ⟨h1, _⟩ := value_fold d 0 n h.2
  cases d with
  | nil => exact absurd rfl h.1
  | cons c t => obtain ⟨k, hk, _⟩ := h1 c (by simp); exact ⟨c, t, rfl, k, hk⟩

theorem specDec_minus (width : Nat) (p : Ptr) (t : List Byte) {v : Int} {rest : List Byte}
    (h : scanDec width 1 0 false t = (v, true, rest)) :
    specDec width p (45 :: t) = some (storeDec true (wrapS 64 (-v)) p, rest) := by
  simp [specDec, h]

theorem specDec_plus (width : Nat) (p : Ptr) (t : List Byte) {v : Int} {rest : List Byte}
    (h : scanDec width 1 0 false t = (v, true, rest)) :
    specDec width p (43 :: t) = some (storeDec false v p, rest) := by
  simp [specDec, h]

theorem specDec_none (width : Nat) (p : Ptr) (c : Byte) (t : List Byte) {v : Int} {rest : List Byte} (h1 : c ≠ 45)
    (h2 : c ≠ 43) (h : scanDec width 0 0 false (c :: t) = (v, true, rest)) :
    specDec width p (c :: t) = some (storeDec false v p, rest) := by
  simp [specDec, h, h1, h2]

theorem pow_cast (N : Nat) : ((2 ^ N : Nat) : Int) = 2 ^ N := by rw [Int.natCast_pow]; rfl

theorem storeU_val {N n : Nat} (hN : N ≤ 64) (hn : n < 2 ^ N) (neg : Bool) (hneg : neg = false) :
    storeDec neg (wrapS 64 n) (.uint N) = some (.uint n) := by
  subst hneg
  show some (Val.uint (wrapS 64 n % 2 ^ N).toNat) = _
  rw [wrapS_emod hN, ← pow_cast, ← Int.natCast_emod, Int.toNat_natCast, Nat.mod_eq_of_lt hn]

/-- The first byte of an item is not a space. -/
theorem text_head {it : Item} {l : List Byte} (h : it.Text l) : ∃ c t, l = c :: t ∧ c ≠ 32 := by
  cases it with
  | dec N v =>
    obtain ⟨_, _, _, d, hd, h⟩ := h
    obtain ⟨c, t, rfl, k, hk⟩ := digits_head hd
    have hc : c ≠ 32 := by rintro rfl; exact absurd hk (by simp [digitVal])
    rcases h with ⟨rfl, _⟩ | ⟨rfl | rfl, _⟩
    · exact ⟨_, _, rfl, by decide⟩
    · exact ⟨_, _, rfl, hc⟩
    · exact ⟨_, _, rfl, by decide⟩
  | udec N n =>
    obtain ⟨_, _, d, hd, h⟩ := h
    obtain ⟨c, t, rfl, k, hk⟩ := digits_head hd
    have hc : c ≠ 32 := by rintro rfl; exact absurd hk (by simp [digitVal])
    rcases h with rfl | rfl
    · exact ⟨_, _, rfl, hc⟩
    · exact ⟨_, _, rfl, by decide⟩
  | hex N n =>
    obtain ⟨c, t, rfl, k, hk⟩ := digits_head h.2.2
    exact ⟨_, _, rfl, by rintro rfl; exact absurd hk (by simp [digitVal])⟩
  | word w =>
    obtain ⟨h1, h2, rfl⟩ := h
    cases l with
    | nil => exact absurd rfl h1
    | cons c t => exact ⟨c, t, rfl, fun e => h2 (by simp [e])⟩

theorem digit_not_sign {c : Byte} {k : Nat} (h : digitVal c = some k) : c ≠ 45 ∧ c ≠ 43 := by
  constructor
  · rintro rfl; exact absurd h (by simp [digitVal])
  · rintro rfl; exact absurd h (by simp [digitVal])

/-- One item is read whole, and nothing else. -/
theorem scanSpec_item (F : ScanF) {it : Item} {l rest : List Byte} (h : it.Text l) (hs : it.Stop rest) :
    scanSpec F it.verb 0 it.ptr (l ++ rest) = some (some it.val, rest) := by
  cases it with
  | dec N v =>
    obtain ⟨h0, hN, hv, d, hd, h⟩ := h
    show specDec 0 (.int N) (l ++ rest) = _
    have hr := fun cnt => scanDec_of_digits (cnt := cnt) hd (rest := rest) hs
    rcases h with ⟨rfl, hle⟩ | ⟨rfl | rfl, hge⟩
    · rw [List.cons_append, specDec_minus _ _ _ (hr 1), wrapS_neg, show -(v.natAbs : Int) = v by omega]
      show some (some (Val.int (wrapS N (wrapS 64 v))), rest) = _
      rw [wrapS_wrapS hN, wrapS_id h0 hv]; rfl
    · obtain ⟨c, t, rfl, k, hk⟩ := digits_head hd
      have hr0 := hr 0
      rw [List.cons_append] at hr0
      rw [List.cons_append, specDec_none _ _ _ _ (digit_not_sign hk).1 (digit_not_sign hk).2 hr0,
        show (v.natAbs : Int) = v by omega]
      show some (some (Val.int (wrapS N (wrapS 64 v))), rest) = _
      rw [wrapS_wrapS hN, wrapS_id h0 hv]; rfl
    · rw [List.cons_append, specDec_plus _ _ _ (hr 1), show (v.natAbs : Int) = v by omega]
      show some (some (Val.int (wrapS N (wrapS 64 v))), rest) = _
      rw [wrapS_wrapS hN, wrapS_id h0 hv]; rfl
  | udec N n =>
    obtain ⟨hN, hn, d, hd, h⟩ := h
    show specDec 0 (.uint N) (l ++ rest) = _
    have hr := fun cnt => scanDec_of_digits (cnt := cnt) hd (rest := rest) hs
    rcases h with rfl | rfl
    · obtain ⟨c, t, rfl, k, hk⟩ := digits_head hd
      have hr0 := hr 0
      rw [List.cons_append] at hr0
      rw [List.cons_append, specDec_none _ _ _ _ (digit_not_sign hk).1 (digit_not_sign hk).2 hr0, storeU_val hN hn _ rfl]; rfl
    · rw [List.cons_append, specDec_plus _ _ _ (hr 1), storeU_val hN hn _ rfl]; rfl
  | hex N n =>
    obtain ⟨hN, hn, hd⟩ := h
    have hr := scanHex_of_digits (cnt := 0) hd (rest := rest) hs
    have hn64 : n < 2 ^ 64 := Nat.lt_of_lt_of_le hn (Nat.pow_le_pow_right (by decide) hN)
    rw [Nat.mod_eq_of_lt hn64] at hr
    show (match scanHex 0 0 0 false (l ++ rest) with
      | (v, h, rest) => if h then some (storeU v (.uint N), rest) else none) = _
    rw [hr]
    show some (some (Val.uint (n % 2 ^ N)), rest) = _
    rw [Nat.mod_eq_of_lt hn]; rfl
  | word w =>
    obtain ⟨h1, h2, rfl⟩ := h
    have hr := scanWord_all l rest 0 h2 hs
    have hlen : 0 < l.length := List.length_pos_iff.2 h1
    show (match scanWord 0 0 (l ++ rest) with
      | (w, rest) => some (if 0 < w.length then some (Val.str w) else none, rest)) = _
    rw [hr]
    show some (if 0 < l.length then some (Val.str l) else none, rest) = _
    rw [if_pos hlen]; rfl

theorem verb_cases (it : Item) : it.verb ≠ 37 ∧ isDigit it.verb = false := by
  cases it <;> (simp only [Item.verb]; decide)

theorem scanGo_item (F : ScanF) {it : Item} {l rest f : List Byte} {ps : List Ptr} {n : Nat} (h : it.Text l)
    (hs : it.Stop rest) : scanGo F (n + 1) (37 :: it.verb :: f) (l ++ rest) (it.ptr :: ps) =
      ((scanGo F n f rest ps).1 + 1, some it.val :: (scanGo F n f rest ps).2) := by
  have hi := scanSpec_item F h hs
  obtain ⟨c, t, rfl, hc⟩ := text_head h
  rw [List.cons_append] at hi ⊢
  have hw : scanWidth 0 (it.verb :: f) = (0, it.verb :: f) := by
    rw [scanWidth, (verb_cases it).2]; rfl
  have hk : skipSp (c :: (t ++ rest)) = c :: (t ++ rest) := skipSp_of_head (by simpa using hc)
  have hv : ¬ (it.verb :: f).head? = some 37 := by
    simpa using (verb_cases it).1
  rw [scanGo.eq_def]
  dsimp only
  rw [if_neg (by decide : ¬ ((37 : Byte) ≠ 37)), if_neg hv, hw]
  dsimp only
  rw [hk]
  dsimp only
  rw [hi]
  rfl

theorem scanGo_segs (F : ScanF) : ∀ (l : List Seg), WF l → ∀ n, (formatOf l).length ≤ n →
    scanGo F n (formatOf l) (textOf l) (l.map (·.item.ptr)) = (l.length, l.map fun s => some s.item.val) := by
  intro l
  induction l with
  | nil =>
    intro _ n _
    cases n with
    | zero => rfl
    | succ n => rfl
  | cons s r ih =>
    intro h n hn
    obtain ⟨h1, h2, h3, h4⟩ := h
    have ef : formatOf (s :: r) = s.sep ++ (37 :: s.item.verb :: formatOf r) := by
      simp [formatOf]
    have et : textOf (s :: r) = s.sep ++ (s.text ++ textOf r) := by simp [textOf]
    rw [ef] at hn ⊢
    rw [et]
    obtain ⟨c, t, hct, hc⟩ := text_head h2
    simp only [List.length_append, List.length_cons] at hn
    refine (scanGo_sep F (m := (formatOf r).length + 1) (by rw [hct]; simp) (by rw [hct]; simpa using hc) ?_ s.sep n h1 (by omega)).1
    intro k hk
    obtain ⟨k, rfl⟩ : ∃ j, k = j + 1 := ⟨k - 1, by omega⟩
    rw [List.map_cons, scanGo_item F h2 h3, ih h4 k (by omega)]
    rfl

end Nature.Fmt
