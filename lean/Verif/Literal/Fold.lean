/-
Folding.
-/
import Verif.Literal.Lemmas
namespace Nature.Literal
open Nature.Scan (IsDecimal dec)
open Nature.Parse (Expr Un Bin)

/-- A literal for the number. -/
def IsLit (e : Expr) (v : Int) : Prop := ∃ neg w, e = .int neg w ∧ Written neg w v ∧ Fits v

theorem lit_isLit {v : Int} (h : Fits v) : IsLit (lit v) v := by
  obtain ⟨neg, w, h1, h2⟩ := lit_written (fits_abs h)
  exact ⟨neg, w, h1, h2, h⟩

theorem fit_ok {v : Int} (h : Fits v) : fit v = .ok v := if_pos h

theorem foldBin_int {F : Floats} {o : Bin} {a b : Expr} {x y v : Int} (ha : IsLit a x) (hb : IsLit b y)
    (ho : intOp o x y = some (.ok v)) (hv : Fits v) : ∃ e, foldBin F o a b = .ok e ∧ IsLit e v := by
  obtain ⟨n, u, rfl, h1, h2⟩ := ha
  obtain ⟨m, w, rfl, h3, h4⟩ := hb
  refine ⟨lit v, ?_, lit_isLit hv⟩
  rw [foldBin, (written_atoll h1 h2).2, (written_atoll h3 h4).2, ho]
  rfl

theorem tdiv_abs (x y : Int) : (x.tdiv y).natAbs ≤ x.natAbs := by
  rw [Int.natAbs_tdiv]; exact Nat.div_le_self _ _

/-- The only division that does not fit. -/
theorem tdiv_fits {x y : Int} (hx : Fits x) (h : ¬ (x = -2 ^ 63 ∧ y = -1)) : Fits (x.tdiv y) := by
  have h1 := tdiv_abs x y
  obtain ⟨a, b⟩ := hx
  refine ⟨by omega, ?_⟩
  by_cases hm : x = -2 ^ 63
  · subst hm
    by_cases hy : y.natAbs ≤ 1
    · have : y = 0 ∨ y = 1 ∨ y = -1 := by omega
      rcases this with rfl | rfl | rfl
      · rw [Int.tdiv_zero]; decide
      · rw [Int.tdiv_one]; decide
      · exact absurd ⟨rfl, rfl⟩ h
    · have h2 : ((-2 ^ 63 : Int).tdiv y).natAbs ≤ 2 ^ 63 / 2 := by
        rw [Int.natAbs_tdiv]
        exact Nat.div_le_div_left (by omega) (by decide)
      omega
  · omega

theorem fits_tdiv {x y : Int} (h : Fits (x.tdiv y)) : ¬ (x = -2 ^ 63 ∧ y = -1) := by
  rintro ⟨rfl, rfl⟩
  have := h.2
  revert this
  decide

theorem tmod_eq (x y : Int) : x - y * x.tdiv y = x.tmod y := by
  have := Int.tmod_add_mul_tdiv x y
  omega

theorem tmod_fits {x y : Int} (hx : Fits x) : Fits (x.tmod y) := by
  have h1 : (x.tmod y).natAbs ≤ x.natAbs := by rw [Int.natAbs_tmod]; exact Nat.mod_le _ _
  obtain ⟨a, b⟩ := hx
  by_cases h0 : 0 ≤ x
  · have := Int.tmod_nonneg y h0
    exact ⟨by omega, by omega⟩
  · have : x.tmod y ≤ 0 := by
      have := Int.tmod_nonneg y (a := -x) (by omega)
      rw [Int.neg_tmod] at this
      omega
    exact ⟨by omega, by omega⟩

theorem shl_toInt {x : Int} {s : Nat} (h : Fits (x * 2 ^ s)) : ((BitVec.ofInt 64 x) <<< s).toInt = x * 2 ^ s := by
  have : (BitVec.ofInt 64 x) <<< s = BitVec.ofInt 64 (x * 2 ^ s) := by
    rw [BitVec.ofInt_mul, BitVec.shiftLeft_eq_mul_twoPow]
    congr 1
    apply BitVec.eq_of_toNat_eq
    rw [BitVec.toNat_twoPow, BitVec.toNat_ofInt]
    have : ((2 : Int) ^ s) = ((2 ^ s : Nat) : Int) := by rw [Int.natCast_pow]; rfl
    rw [this, ← Int.natCast_emod, Int.toNat_natCast]
  rw [this, toInt_fits h]

theorem shr_toInt {x : Int} (hx : Fits x) (s : Nat) : ((BitVec.ofInt 64 x).sshiftRight s).toInt = x / 2 ^ s := by
  rw [BitVec.toInt_sshiftRight, toInt_fits hx, Int.shiftRight_eq_div_pow]
  rw [Int.natCast_pow]; rfl

theorem shr_fits {x : Int} (hx : Fits x) (s : Nat) : Fits (x / 2 ^ s) := by
  rw [← shr_toInt hx s]; exact fits_toInt _

/-- A constant expression becomes the literal of its value. -/
theorem means_fold {F : Floats} {e : Expr} {v : Int} (h : Means e v) : ∃ e', fold F e = .ok e' ∧ IsLit e' v := by
  induction h with
  | int h1 h2 => exact ⟨_, by rw [fold], _, _, rfl, h1, h2⟩
  | neg _ hf ih =>
    obtain ⟨a', h1, n, w, rfl, h2, h3⟩ := ih
    refine ⟨_, ?_, lit_isLit hf⟩
    rw [fold, h1]
    simp only [Out.bind, foldUn]
    rw [(written_atoll h2 h3).2, fit_ok hf]
  | bnot _ hf hb ih =>
    obtain ⟨a', h1, n, w, rfl, h2, h3⟩ := ih
    refine ⟨_, ?_, lit_isLit hf⟩
    rw [fold, h1]
    simp only [Out.bind, foldUn]
    rw [(written_atoll h2 h3).2, bnot_spec h3 hf hb]
  | add _ _ hf ih1 ih2 =>
    obtain ⟨a', h1, h2⟩ := ih1
    obtain ⟨b', h3, h4⟩ := ih2
    obtain ⟨e, h5, h6⟩ := foldBin_int (F := F) (o := .add) h2 h4 (by rw [intOp, fit_ok hf]) hf
    exact ⟨e, by rw [fold, h1, h3]; exact h5, h6⟩
  | sub _ _ hf ih1 ih2 =>
    obtain ⟨a', h1, h2⟩ := ih1
    obtain ⟨b', h3, h4⟩ := ih2
    obtain ⟨e, h5, h6⟩ := foldBin_int (F := F) (o := .sub) h2 h4 (by rw [intOp, fit_ok hf]) hf
    exact ⟨e, by rw [fold, h1, h3]; exact h5, h6⟩
  | mul _ _ hf ih1 ih2 =>
    obtain ⟨a', h1, h2⟩ := ih1
    obtain ⟨b', h3, h4⟩ := ih2
    obtain ⟨e, h5, h6⟩ := foldBin_int (F := F) (o := .mul) h2 h4 (by rw [intOp, fit_ok hf]) hf
    exact ⟨e, by rw [fold, h1, h3]; exact h5, h6⟩
  | div _ _ hy hf ih1 ih2 =>
    obtain ⟨a', h1, h2⟩ := ih1
    obtain ⟨b', h3, h4⟩ := ih2
    obtain ⟨e, h5, h6⟩ := foldBin_int (F := F) (o := .div) h2 h4 (by rw [intOp, if_neg hy, if_neg (fits_tdiv hf)]) hf
    exact ⟨e, by rw [fold, h1, h3]; exact h5, h6⟩
  | rem _ _ hy hf ih1 ih2 =>
    obtain ⟨a', h1, h2⟩ := ih1
    obtain ⟨b', h3, h4⟩ := ih2
    rw [tmod_eq]
    obtain ⟨e, h5, h6⟩ := foldBin_int (F := F) (o := .rem) h2 h4 (by rw [intOp, if_neg hy, if_neg (fits_tdiv hf)])
      (tmod_fits (by obtain ⟨_, _, _, _, q⟩ := h2; exact q))
    exact ⟨e, by rw [fold, h1, h3]; exact h5, h6⟩
  | and _ _ hf hb ih1 ih2 =>
    obtain ⟨a', h1, h2⟩ := ih1
    obtain ⟨b', h3, h4⟩ := ih2
    obtain ⟨e, h5, h6⟩ := foldBin_int (F := F) (o := .and) h2 h4
      (by rw [intOp, bits_spec (g := (· && ·)) (fun _ _ _ => BitVec.getLsbD_and) hf hb]) hf
    exact ⟨e, by rw [fold, h1, h3]; exact h5, h6⟩
  | or _ _ hf hb ih1 ih2 =>
    obtain ⟨a', h1, h2⟩ := ih1
    obtain ⟨b', h3, h4⟩ := ih2
    obtain ⟨e, h5, h6⟩ := foldBin_int (F := F) (o := .or) h2 h4
      (by rw [intOp, bits_spec (g := (· || ·)) (fun _ _ _ => BitVec.getLsbD_or) hf hb]) hf
    exact ⟨e, by rw [fold, h1, h3]; exact h5, h6⟩
  | xor _ _ hf hb ih1 ih2 =>
    obtain ⟨a', h1, h2⟩ := ih1
    obtain ⟨b', h3, h4⟩ := ih2
    obtain ⟨e, h5, h6⟩ := foldBin_int (F := F) (o := .xor) h2 h4
      (by rw [intOp, bits_spec (g := (· ^^ ·)) (fun _ _ _ => BitVec.getLsbD_xor) hf hb]) hf
    exact ⟨e, by rw [fold, h1, h3]; exact h5, h6⟩
  | shl _ _ hs hf ih1 ih2 =>
    obtain ⟨a', h1, h2⟩ := ih1
    obtain ⟨b', h3, h4⟩ := ih2
    obtain ⟨e, h5, h6⟩ := foldBin_int (F := F) (o := .lshift) h2 h4
      (by rw [intOp, if_pos (by omega), Int.toNat_natCast, shl_toInt hf]) hf
    exact ⟨e, by rw [fold, h1, h3]; exact h5, h6⟩
  | shr _ _ hs ih1 ih2 =>
    rename_i x s _ _
    obtain ⟨a', h1, h2⟩ := ih1
    obtain ⟨b', h3, h4⟩ := ih2
    have hx : Fits x := by obtain ⟨_, _, _, _, q⟩ := h2; exact q
    obtain ⟨e, h5, h6⟩ := foldBin_int (F := F) (o := .rshift) h2 h4
      (by rw [intOp, if_pos (by omega), Int.toNat_natCast, shr_toInt hx]) (shr_fits hx _)
    exact ⟨e, by rw [fold, h1, h3]; exact h5, h6⟩

/-! ### Execution -/

/-- What a literal of type int is when it is not an error. -/
theorem compile_int {n : Bool} {w : List Char} {v : Int} (h : compile .i64 n w = .ok v) : strtoll0 n w = v ∧ Fits v := by
  unfold compile at h
  rw [if_pos (show rangeCheck .i64 (atoll n w) = true from rfl)] at h
  dsimp only at h
  split at h
  · simp only [isUnsigned, Bool.false_eq_true, if_false, Res.ok.injEq] at h
    refine ⟨h, ?_⟩
    rw [← h, clampS]
    split <;> constructor <;> omega
  · cases h

theorem compile_lit {v : Int} (h : Fits v) : ∃ n w, lit v = .int n w ∧ compile .i64 n w = .ok v := by
  obtain ⟨n, w, h1, h2⟩ := lit_written (fits_abs h)
  exact ⟨n, w, h1, compile_written h2 ⟨h.1, by have := h.2; simp only [Kind.max]; omega⟩⟩

theorem eval_lit (ρ : List Char → Val) {v : Int} (h : Fits v) : eval ρ (lit v) = .val (.int (BitVec.ofInt 64 v)) := by
  obtain ⟨n, w, h1, h2⟩ := compile_lit h
  rw [h1, eval, h2]

/-- Nothing is said about the literal, or it is what folding takes it for. -/
theorem eval_int (ρ : List Char → Val) (n : Bool) (w : List Char) : eval ρ (.int n w) = .unknown ∨
    (eval ρ (.int n w) = .val (.int (BitVec.ofInt 64 (strtoll0 n w))) ∧ Fits (strtoll0 n w)) := by
  rw [eval]
  cases hc : compile .i64 n w with
  | err => exact .inl rfl
  | ok v =>
    obtain ⟨h1, h2⟩ := compile_int hc
    rw [h1]
    exact .inr ⟨rfl, h2⟩

theorem ofInt_sub (x y : Int) : BitVec.ofInt 64 (x - y) = BitVec.ofInt 64 x - BitVec.ofInt 64 y := by
  rw [Int.sub_eq_add_neg, BitVec.ofInt_add, BitVec.ofInt_neg, BitVec.sub_eq_add_neg]

theorem ofInt_inj {x y : Int} (hx : Fits x) (hy : Fits y) (h : BitVec.ofInt 64 x = BitVec.ofInt 64 y) : x = y := by
  rw [← toInt_fits hx, ← toInt_fits hy, h]

theorem toNat_ofInt_fits {y : Int} (h0 : 0 ≤ y) (hy : Fits y) : (BitVec.ofInt 64 y).toNat = y.toNat := by
  rw [BitVec.toNat_ofInt]
  congr 1
  have := hy.2
  exact Int.emod_eq_of_lt h0 (by simp; omega)

/-- Folding computes what the machine computes. -/
theorem intOp_machine {o : Bin} {x y v : Int} (hx : Fits x) (hy : Fits y) (h : intOp o x y = some (.ok v)) :
    Fits v ∧ machine o (.int (BitVec.ofInt 64 x)) (.int (BitVec.ofInt 64 y)) = .val (.int (BitVec.ofInt 64 v)) := by
  have hfit : ∀ {a : Int}, fit a = .ok v → Fits v ∧ a = v := by
    intro a ha
    unfold fit at ha
    split at ha
    · rename_i q; simp only [Out.ok.injEq] at ha; rw [← ha]; exact ⟨q, rfl⟩
    · cases ha
  have hdiv : ∀ {f : Int → Int → Int}, (y = 0 → False) → (x = -2 ^ 63 ∧ y = -1 → False) →
      (if BitVec.ofInt 64 y = 0 ∨ (BitVec.ofInt 64 x = BitVec.intMin 64 ∧ BitVec.ofInt 64 y = -1) then Run.fails
        else .val (.int (BitVec.ofInt 64 (f (BitVec.ofInt 64 x).toInt (BitVec.ofInt 64 y).toInt)))) = .val (.int (BitVec.ofInt 64 (f x y))) := by
    intro f h1 h2
    rw [if_neg, toInt_fits hx, toInt_fits hy]
    rintro (q | ⟨q1, q2⟩)
    · exact h1 (ofInt_inj hy (by constructor <;> decide) (q.trans (by decide)))
    · exact h2 ⟨ofInt_inj hx (by constructor <;> decide) (q1.trans (by decide)), ofInt_inj hy (by constructor <;> decide) (q2.trans (by decide))⟩
  cases o with
  | add =>
    rw [intOp, Option.some.injEq] at h
    obtain ⟨q, rfl⟩ := hfit h
    exact ⟨q, by rw [machine, BitVec.ofInt_add]⟩
  | sub =>
    rw [intOp, Option.some.injEq] at h
    obtain ⟨q, rfl⟩ := hfit h
    exact ⟨q, by rw [machine, ofInt_sub]⟩
  | mul =>
    rw [intOp, Option.some.injEq] at h
    obtain ⟨q, rfl⟩ := hfit h
    exact ⟨q, by rw [machine, BitVec.ofInt_mul]⟩
  | div =>
    rw [intOp] at h
    split at h
    · cases h
    · rename_i h0
      rw [Option.some.injEq] at h
      split at h
      · cases h
      · rename_i h1
        simp only [Out.ok.injEq] at h
        subst h
        exact ⟨tdiv_fits hx h1, by rw [machine]; exact hdiv (f := Int.tdiv) h0 h1⟩
  | rem =>
    rw [intOp] at h
    split at h
    · cases h
    · rename_i h0
      rw [Option.some.injEq] at h
      split at h
      · cases h
      · rename_i h1
        simp only [Out.ok.injEq] at h
        subst h
        exact ⟨tmod_fits hx, by rw [machine]; exact hdiv (f := Int.tmod) h0 h1⟩
  | and =>
    simp only [intOp, Option.some.injEq, Out.ok.injEq] at h
    subst h
    exact ⟨fits_toInt _, by rw [machine, bits, BitVec.ofInt_toInt]⟩
  | or =>
    simp only [intOp, Option.some.injEq, Out.ok.injEq] at h
    subst h
    exact ⟨fits_toInt _, by rw [machine, bits, BitVec.ofInt_toInt]⟩
  | xor =>
    simp only [intOp, Option.some.injEq, Out.ok.injEq] at h
    subst h
    exact ⟨fits_toInt _, by rw [machine, bits, BitVec.ofInt_toInt]⟩
  | lshift =>
    rw [intOp, Option.some.injEq] at h
    split at h
    · rename_i hs
      simp only [Out.ok.injEq] at h
      subst h
      have hn := toNat_ofInt_fits hs.1 hy
      exact ⟨fits_toInt _, by rw [machine, hn, if_pos (by omega), BitVec.ofInt_toInt]⟩
    · cases h
  | rshift =>
    rw [intOp, Option.some.injEq] at h
    split at h
    · rename_i hs
      simp only [Out.ok.injEq] at h
      subst h
      have hn := toNat_ofInt_fits hs.1 hy
      exact ⟨fits_toInt _, by rw [machine, hn, if_pos (by omega), BitVec.ofInt_toInt]⟩
    · cases h
  | _ => cases h

/-- The second execution is as the first one, where that is known. -/
def Refines (r r' : Run) : Prop := r = .unknown ∨ r' = r

theorem Refines.rfl {r : Run} : Refines r r := .inr (Eq.refl r)

theorem Refines.of_eq {r r' : Run} (h : r = r') : Refines r r' := .inr h.symm

theorem Refines.then {r r' : Run} {f f' : Val → Run} (h : Refines r r') (hf : ∀ v, Refines (f v) (f' v)) : Refines (r.then f) (r'.then f') := by
  rcases h with rfl | rfl
  · exact .inl (Eq.refl _)
  · cases r' with
    | val v => exact hf v
    | fails => exact .rfl
    | unknown => exact .rfl

theorem Refines.bin {ρ : List Char → Val} {o : Bin} {a b a' b' : Expr} (ha : Refines (eval ρ a) (eval ρ a'))
    (hb : Refines (eval ρ b) (eval ρ b')) : Refines (eval ρ (.bin o a b)) (eval ρ (.bin o a' b')) := by
  cases o with
  | andAnd =>
    rw [eval, eval]
    refine ha.then fun v => ?_
    cases v with
    | bool c => cases c with
      | true => exact hb
      | false => exact .rfl
    | _ => exact .rfl
  | orOr =>
    rw [eval, eval]
    refine ha.then fun v => ?_
    cases v with
    | bool c => cases c with
      | true => exact .rfl
      | false => exact hb
    | _ => exact .rfl
  | _ =>
    simp only [eval]
    exact ha.then fun v => hb.then fun u => .rfl

theorem cstr_self : ∀ (w : List Char), '\x00' ∉ w → cstr w = w
  | [], _ => rfl
  | c :: w, h => by
    have ih := cstr_self w (fun q => h (List.mem_cons_of_mem _ q))
    unfold cstr at ih ⊢
    rw [List.takeWhile_cons, if_pos, ih]
    simp only [ne_eq, decide_eq_true_eq]
    rintro rfl
    exact h List.mem_cons_self

theorem foldBin_eval {F : Floats} {ρ : List Char → Val} {o : Bin} {a b e : Expr} (h : foldBin F o a b = .ok e) :
    Refines (eval ρ (.bin o a b)) (eval ρ e) := by
  have hfl : ∀ n w (c : Expr), eval ρ (.bin o (.float n w) c) = .unknown := by intro n w c; cases o <;> simp [eval, Run.then]
  unfold foldBin at h
  split at h
  · rename_i u v
    simp only [Out.ok.injEq] at h
    split at h
    · rename_i ho
      subst ho
      rw [← h]
      simp only [eval]
      by_cases hu : '\x00' ∈ u
      · rw [if_pos hu]; exact .inl rfl
      · by_cases hv : '\x00' ∈ v
        · rw [if_neg hu, if_pos hv]; exact .inl rfl
        · rw [if_neg hu, if_neg hv, cstr_self u hu, cstr_self v hv, if_neg (by simp [hu, hv])]
          exact .inr rfl
    · rw [← h]; exact .rfl
  · rename_i n u m w
    cases ho : intOp o (strtoll0 n u) (strtoll0 m w) with
    | none => rw [ho] at h; simp only [Out.ok.injEq] at h; rw [← h]; exact .rfl
    | some r =>
      rw [ho] at h
      have hm : eval ρ (.bin o (.int n u) (.int m w)) = (eval ρ (.int n u)).then fun x => (eval ρ (.int m w)).then fun y => machine o x y := by
        cases o <;> first | rfl | cases ho
      rw [hm]
      rcases eval_int ρ n u with h1 | ⟨h1, hx⟩
      · rw [h1]; exact .inl rfl
      · rcases eval_int ρ m w with h2 | ⟨h2, hy⟩
        · rw [h1, h2]; exact .inl rfl
        · cases r with
          | undef => cases h
          | trap => cases h
          | ok z =>
            obtain ⟨hz, hm⟩ := intOp_machine hx hy ho
            simp only [Out.bind, Out.ok.injEq] at h
            rw [h1, h2, ← h, eval_lit ρ hz]
            simp only [Run.then]
            rw [hm]
            exact .rfl
  · rw [hfl]; exact .inl rfl
  · rw [hfl]; exact .inl rfl
  · rename_i n u m w
    left
    rcases eval_int ρ n u with h1 | ⟨h1, hx⟩ <;> cases o <;> simp only [eval] at h1 ⊢ <;> rw [h1] <;> rfl
  · simp only [Out.ok.injEq] at h; rw [← h]; exact .rfl

theorem foldUn_eval {F : Floats} {ρ : List Char → Val} {o : Un} {a e : Expr} (h : foldUn F o a = .ok e) :
    Refines (eval ρ (.un o a)) (eval ρ e) := by
  unfold foldUn at h
  split at h
  · rename_i n w
    cases o with
    | neg =>
      rw [eval]
      rcases eval_int ρ n w with h1 | ⟨h1, hx⟩
      · rw [h1]; exact .inl rfl
      · dsimp only at h
        unfold fit at h
        split at h
        · rename_i q
          simp only [Out.bind, Out.ok.injEq] at h
          rw [h1, ← h, eval_lit ρ q, BitVec.ofInt_neg]
          exact .rfl
        · cases h
    | bnot =>
      rw [eval]
      rcases eval_int ρ n w with h1 | ⟨h1, hx⟩
      · rw [h1]; exact .inl rfl
      · simp only [Out.ok.injEq] at h
        rw [h1, ← h, eval_lit ρ (by obtain ⟨a, b⟩ := hx; constructor <;> omega), ofInt_sub, BitVec.ofInt_neg]
        right
        simp only [Run.then, machine1]
        rw [BitVec.not_eq_neg_add]
        rfl
    | not => simp only [Out.ok.injEq] at h; rw [← h]; exact .rfl
    | la => simp only [Out.ok.injEq] at h; rw [← h]; exact .rfl
    | ia => simp only [Out.ok.injEq] at h; rw [← h]; exact .rfl
  · rw [eval]; exact .inl rfl
  · simp only [Out.ok.injEq] at h
    split at h
    · rename_i ho; subst ho; rw [← h]; exact .inr rfl
    · rw [← h]; exact .rfl
  · simp only [Out.ok.injEq] at h; rw [← h]; exact .rfl

theorem fold_eval (F : Floats) (ρ : List Char → Val) : ∀ (e e' : Expr), fold F e = .ok e' → Refines (eval ρ e) (eval ρ e')
  | .un o a, e', h => by
    rw [fold] at h
    cases ha : fold F a with
    | undef => rw [ha] at h; cases h
    | trap => rw [ha] at h; cases h
    | ok a' =>
      rw [ha] at h
      have h1 : Refines (eval ρ (.un o a)) (eval ρ (.un o a')) := by
        rw [eval, eval]
        exact (fold_eval F ρ a a' ha).then fun v => .rfl
      have h2 := foldUn_eval (ρ := ρ) h
      rcases h1 with h1 | h1
      · exact .inl h1
      · rw [← h1]; exact h2
  | .bin o a b, e', h => by
    rw [fold] at h
    cases ha : fold F a with
    | undef => rw [ha] at h; cases h
    | trap => rw [ha] at h; cases h
    | ok a' =>
      cases hb : fold F b with
      | undef => rw [ha, hb] at h; cases h
      | trap => rw [ha, hb] at h; cases h
      | ok b' =>
        rw [ha, hb] at h
        have h1 := Refines.bin (o := o) (fold_eval F ρ a a' ha) (fold_eval F ρ b b' hb)
        have h2 := foldBin_eval (ρ := ρ) h
        rcases h1 with h1 | h1
        · exact .inl h1
        · rw [← h1]; exact h2
  | .cond c a b, e', h => by
    rw [fold] at h
    cases hc : fold F c with
    | undef => rw [hc] at h; cases h
    | trap => rw [hc] at h; cases h
    | ok c' =>
      cases ha : fold F a with
      | undef => rw [hc, ha] at h; cases h
      | trap => rw [hc, ha] at h; cases h
      | ok a' =>
        cases hb : fold F b with
        | undef => rw [hc, ha, hb] at h; cases h
        | trap => rw [hc, ha, hb] at h; cases h
        | ok b' =>
          rw [hc, ha, hb] at h
          simp only [Out.bind, Out.ok.injEq] at h
          rw [← h, eval, eval]
          refine (fold_eval F ρ c c' hc).then fun v => ?_
          cases v with
          | bool t => cases t with
            | true => exact fold_eval F ρ a a' ha
            | false => exact fold_eval F ρ b b' hb
          | _ => exact .rfl
  | .int n w, e', h => by rw [fold, Out.ok.injEq] at h; rw [← h]; exact .rfl
  | .ident w, e', h => by rw [fold, Out.ok.injEq] at h; rw [← h]; exact .rfl
  | .str w, e', h => by rw [fold, Out.ok.injEq] at h; rw [← h]; exact .rfl
  | .bool w, e', h => by rw [fold, Out.ok.injEq] at h; rw [← h]; exact .rfl
  | .float _ _, _, _ => .inl rfl
  | .null, _, _ => .inl rfl
  | .as _ _, _, _ => .inl rfl
  | .select _ _, _, _ => .inl rfl
  | .access _ _, _, _ => .inl rfl
  | .slice _ _ _, _, _ => .inl rfl
  | .call _ _ _, _, _ => .inl rfl
  | .tuple _, _, _ => .inl rfl

end Nature.Literal
