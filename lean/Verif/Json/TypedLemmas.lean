import Verif.Json.TypedSpec
import Verif.Json.Values
import Verif.Fmt.Show
import Verif.Fmt.ScanLemmas
namespace Nature.Json

/-! ### Numbers -/

theorem digitVal_dec {c : Byte} {d : Nat} (h : Fmt.digitVal c = some d) (hd : d < 10) : (48 ≤ c ∧ c ≤ 57) ∧ d = c.toNat - 48 := by
  rw [Fmt.digitVal] at h
  split at h
  · rename_i hc
    injection h with h
    exact ⟨hc, h.symm⟩
  · split at h
    · rename_i hc
      injection h with h
      have : 97 ≤ c.toNat := UInt8.le_iff_toNat_le.1 hc.1
      omega
    · split at h
      · rename_i hc
        injection h with h
        have : 65 ≤ c.toNat := UInt8.le_iff_toNat_le.1 hc.1
        omega
      · cases h

theorem foldl_mono : ∀ (l : List Byte) (a : Nat), a ≤ l.foldl (fun a c => a * 10 + (c.toNat - 48)) a := by
  intro l
  induction l with
  | nil => intro a; exact Nat.le_refl _
  | cons c l ih => intro a; exact Nat.le_trans (show a ≤ a * 10 + (c.toNat - 48) by omega) (ih _)

theorem numeral_digits {l : List Byte} {n : Nat} (h : Fmt.Numeral 10 l n) : Digits l ∧ l.foldl (fun a c => a * 10 + (c.toNat - 48)) 0 = n := by
  obtain ⟨h1, h2⟩ := Fmt.value_fold l 0 n h.val
  have hd : Digits l := by
    intro c hc
    obtain ⟨d, e1, e2⟩ := h1 c hc
    exact (digitVal_dec e1 e2).1
  refine ⟨hd, ?_⟩
  rw [← h2]
  have : ∀ (l : List Byte) (a : Nat), (∀ c ∈ l, ∃ d, Fmt.digitVal c = some d ∧ d < 10) →
      l.foldl (fun a c => a * 10 + (c.toNat - 48)) a = l.foldl (fun a c => a * 10 + (Fmt.digitVal c).getD 0) a := by
    intro l
    induction l with
    | nil => intro a _; rfl
    | cons c l ih =>
      intro a h
      obtain ⟨d, e1, e2⟩ := h c List.mem_cons_self
      rw [List.foldl_cons, List.foldl_cons, ih _ (fun c hc => h c (List.mem_cons_of_mem _ hc)), e1, (digitVal_dec e1 e2).2]
      rfl
  exact this l 0 h1

theorem numeral_int {l : List Byte} {n : Nat} (h : Fmt.Numeral 10 l n) : IntOk l := by
  have hd := (numeral_digits h).1
  cases l with
  | nil => exact absurd rfl h.ne
  | cons c t =>
    by_cases hc : c = 48
    · subst hc; exact Or.inl (h.lead rfl)
    · obtain ⟨h1, h2⟩ := hd c List.mem_cons_self
      refine Or.inr ⟨c, t, rfl, ?_, h2, fun d hm => hd d (List.mem_cons_of_mem _ hm)⟩
      rw [UInt8.le_iff_toNat_le] at h1 ⊢
      have e1 : (48 : Byte).toNat = 48 := rfl
      have e2 : (49 : Byte).toNat = 49 := rfl
      have : c.toNat ≠ 48 := fun hh => hc (UInt8.toNat_inj.1 hh)
      omega

theorem digits_exact {O : F64} (hO : O.Exact) : ∀ (l : List Byte) (a : Nat), l.foldl (fun a c => a * 10 + (c.toNat - 48)) a ≤ 2 ^ 53 →
    l.foldl (fun a c => O.add (O.mul a (O.lit 10)) (O.lit (c.toNat - 48))) (O.lit a) =
      O.lit (l.foldl (fun a c => a * 10 + (c.toNat - 48)) a) := by
  intro l
  induction l with
  | nil => intro a _; rfl
  | cons c l ih =>
    intro a h
    rw [List.foldl_cons] at h
    have hm := foldl_mono l (a * 10 + (c.toNat - 48))
    rw [List.foldl_cons, List.foldl_cons, hO.mul a (by omega), hO.add _ _ (by omega)]
    exact ih _ h

/-- A sign and digits. -/
theorem number_int {O : F64} (hO : O.Exact) {l : List Byte} {n : Nat} (h : Fmt.Numeral 10 l n) (hn : n ≤ 2 ^ 53) (neg : Bool)
    {r : List Byte} (hr : Stop r) :
    parserNumber O ((if neg then 45 :: l else l) ++ r) = some (if neg then O.neg (O.lit n) else O.lit n, r) := by
  have hi := numeral_int h
  obtain ⟨hd, hv⟩ := numeral_digits h
  have hs : NumStop r := stop_num hr
  have hr48 : ∀ c, r.head? = some c → ¬ (48 ≤ c ∧ c ≤ 57) := fun c hc => (hs c hc).1
  obtain ⟨c, t, he, hc⟩ := int_head (r := []) hi
  rw [List.append_nil] at he
  have hval : O.digits l = O.lit n := by rw [F64.digits, digits_exact hO l 0 (by rw [hv]; exact hn), hv]
  have hne : ∀ (x : List Byte) (c : Byte), (x ++ r) = (x ++ r) → True := fun _ _ _ => trivial
  have hf : numFrac r = some ([], r) := by
    have := numFrac_complete (f := []) (r := r) (Or.inl rfl) (fun c hc => ⟨(hs c hc).1, (hs c hc).2.1⟩)
    exact this
  have hx : numExp r = some ([], r) := numExp_complete (e := []) (Or.inl rfl) hs
  have hc45 : c ≠ 45 := by rintro rfl; exact absurd hc.1 (by decide)
  have key : ∀ sg : List Byte, SignOk sg → numSign (sg ++ (l ++ r)) = (sg, l ++ r) := by
    intro sg hsg
    refine numSign_complete hsg ?_
    rw [he]
    intro hh
    injection hh with hh
    exact hc45 hh
  have hskip : ∀ sg : List Byte, SignOk sg → skipWs (sg ++ (l ++ r)) = sg ++ (l ++ r) := by
    intro sg hsg
    refine skipWs_stop fun d hd => ?_
    rcases hsg with rfl | rfl
    · rw [he] at hd
      injection hd with hd
      rw [← hd]
      exact digit_notSpace (Or.inr hc)
    · injection hd with hd
      rw [← hd]; decide
  have main : ∀ sg : List Byte, SignOk sg → parserNumber O (sg ++ (l ++ r)) = some (if sg = [45] then O.neg (O.lit n) else O.lit n, r) := by
    intro sg hsg
    rw [parserNumber, hskip sg hsg, key sg hsg]
    dsimp only
    rw [numInt_complete hi hr48]
    dsimp only [Option.bind_some]
    rw [hf]
    dsimp only [Option.bind_some]
    rw [hx]
    dsimp only [Option.bind_some]
    rw [hval]
    rfl
  cases neg with
  | false =>
    have := main [] (Or.inl rfl)
    rw [if_neg (by simp)] at this
    exact this
  | true =>
    have := main [45] (Or.inr rfl)
    rw [if_pos rfl] at this
    exact this

theorem serInt_text {sg : Bool} {w : Nat} {z : Int} (h : Safe sg w z) :
    ∃ l, Fmt.Numeral 10 l z.natAbs ∧ serInt sg w z = if z < 0 then 45 :: l else l := by
  obtain ⟨⟨h0, h64, hr⟩, hm, _⟩ := h
  cases sg with
  | true =>
    rw [if_pos rfl] at hr
    have hsm := Fmt.natAbs_small h64 hr
    refine ⟨_, Fmt.utosWith_numeral (b := 10) (letter := 97) (by decide) (by decide) (Or.inl rfl) hsm 48, ?_⟩
    have := Fmt.itosWith_eq h0 h64 hr (hm rfl) false 0 (fun _ => Or.inr rfl)
    rw [serInt, if_pos rfl]
    rw [if_neg (by decide)] at this
    rw [this, Fmt.pad, if_neg (by decide), Nat.zero_sub]
    rfl
  | false =>
    rw [if_neg (by decide)] at hr
    have hlt : z.toNat < 10 ^ 20 := by
      have h2 : (2 : Int) ^ w ≤ 2 ^ 64 := by
        have := Nat.pow_le_pow_right (n := 2) (by decide) h64
        exact_mod_cast this
      have : (2 : Int) ^ 64 = 18446744073709551616 := by decide
      have : (10 : Nat) ^ 20 = 100000000000000000000 := by decide
      omega
    have e : z.natAbs = z.toNat := by omega
    refine ⟨Fmt.utosWith 10 97 z.toNat 32 0, ?_, ?_⟩
    · rw [e]; exact Fmt.utosWith_numeral (by decide) (by decide) (Or.inl rfl) hlt 32
    · rw [serInt, if_neg (by decide), if_neg (by omega)]

theorem serInt_number {O : F64} (hO : O.Exact) {sg : Bool} {w : Nat} {z : Int} (h : Safe sg w z) {r : List Byte} (hr : Stop r) :
    ∃ f, parserNumber O (serInt sg w z ++ r) = some (f, r) ∧ O.toInt sg w f = z := by
  obtain ⟨l, hl, e⟩ := serInt_text h
  have hb := h.2.2
  by_cases hz : z < 0
  · rw [if_pos hz] at e
    have := number_int hO hl hb true hr
    rw [if_pos rfl, if_pos rfl] at this
    refine ⟨_, by rw [e]; exact this, ?_⟩
    have hsg : sg = true := by
      cases sg with
      | true => rfl
      | false => obtain ⟨⟨_, _, h1⟩, _⟩ := h; rw [if_neg (by decide)] at h1; omega
    subst hsg
    have en : -((z.natAbs : Int)) = z := by omega
    have := hO.neg w z.natAbs (by rw [en]; exact h.1) hb
    rw [this, en]
  · rw [if_neg hz] at e
    have := number_int hO hl hb false hr
    rw [if_neg (by decide), if_neg (by decide)] at this
    refine ⟨_, by rw [e]; exact this, ?_⟩
    have en : ((z.natAbs : Int)) = z := by omega
    have := hO.pos sg w z.natAbs (by rw [en]; exact h.1) hb
    rw [this, en]

theorem serInt_head {sg : Bool} {w : Nat} {z : Int} (h : Safe sg w z) : ∃ c t, serInt sg w z = c :: t ∧ (c = 45 ∨ (48 ≤ c ∧ c ≤ 57)) := by
  obtain ⟨l, hl, e⟩ := serInt_text h
  split at e
  · exact ⟨_, _, e, Or.inl rfl⟩
  · cases l with
    | nil => exact absurd rfl hl.ne
    | cons c t => exact ⟨c, t, e, Or.inr ((numeral_digits hl).1 c List.mem_cons_self)⟩

/-! ### Memory that can take a value -/

def notOpt : Ty → Prop
  | .opt _ => False
  | _ => True

mutual
def Room : Ty → Cell → Prop
  | .bool, _ => True
  | .int _ _, _ => True
  | .str, _ => True
  | .vec t, c => ∃ len mem, c = .vec true len mem ∧ (∀ e ∈ mem, Room t e) ∧ Room t (zeroOf t)
  | .map t, c => c = .map true [] ∧ Room t (zeroOf t)
  | .struct fs, c => ∃ cs, c = .struct cs ∧ RoomFields fs cs
  | .opt t, c => c = .null ∧ Room t (optInit t) ∧ notOpt t
def RoomFields : Fields → List Cell → Prop
  | .nil, cs => cs = []
  | .cons _ t rest, cs => ∃ c cs', cs = c :: cs' ∧ Room t c ∧ RoomFields rest cs'
end

mutual
theorem flat_room : ∀ t, Flat t → Room t (zeroOf t)
  | .bool, _ => by simp only [Room]
  | .int _ _, _ => by simp only [Room]
  | .str, _ => by simp only [Room]
  | .struct fs, h => by
    simp only [Room, zeroOf]
    exact ⟨_, rfl, flat_roomFields fs (by simpa only [Flat] using h)⟩
  | .vec _, h => by simp only [Flat] at h
  | .map _, h => by simp only [Flat] at h
  | .opt _, h => by simp only [Flat] at h
theorem flat_roomFields : ∀ fs, FlatFields fs → RoomFields fs (zeroFields fs)
  | .nil, _ => by simp only [RoomFields, zeroFields]
  | .cons _ t rest, h => by
    simp only [FlatFields] at h
    simp only [RoomFields, zeroFields]
    exact ⟨_, _, rfl, flat_room t h.1, flat_roomFields rest h.2⟩
end

mutual
theorem supported_room : ∀ t, Supported t → Room t (defaultOf t)
  | .bool, _ => by simp only [Room]
  | .int _ _, _ => by simp only [Room]
  | .str, _ => by simp only [Room]
  | .vec t, h => by
    simp only [Supported] at h
    simp only [Room, defaultOf]
    exact ⟨_, _, rfl, by simp, flat_room t h⟩
  | .map t, h => by
    simp only [Supported] at h
    simp only [Room, defaultOf]
    exact ⟨trivial, flat_room t h⟩
  | .struct fs, h => by
    simp only [Supported] at h
    simp only [Room, defaultOf]
    exact ⟨_, rfl, supported_roomFields fs h⟩
  | .opt t, h => by
    simp only [Room, defaultOf]
    refine ⟨trivial, ?_⟩
    cases t with
    | bool => simp only [Room, notOpt, and_self]
    | int _ _ => simp only [Room, notOpt, and_self]
    | str => simp only [Room, notOpt, and_self]
    | vec e =>
      simp only [Supported] at h
      simp only [Room, optInit, notOpt, and_true]
      refine ⟨_, _, rfl, fun x hx => ?_, flat_room e h⟩
      rw [(List.mem_replicate.1 hx).2]
      exact flat_room e h
    | map e =>
      simp only [Supported] at h
      simp only [Room, optInit, notOpt, and_true]
      exact ⟨trivial, flat_room e h⟩
    | struct fs =>
      simp only [Supported] at h
      exact ⟨flat_room (.struct fs) h, trivial⟩
    | opt e => simp only [Supported, Flat] at h
theorem supported_roomFields : ∀ fs, SupportedFields fs → RoomFields fs (defaultFields fs)
  | .nil, _ => by simp only [RoomFields, defaultFields]
  | .cons _ t rest, h => by
    simp only [SupportedFields] at h
    simp only [RoomFields, defaultFields]
    exact ⟨_, _, rfl, supported_room t h.1, supported_roomFields rest h.2⟩
end

/-! ### The first byte -/

def Head (l : List Byte) : Prop := ∃ c u, l = c :: u ∧ isSpace c = false ∧ c ≠ 93 ∧ c ≠ 125

theorem ser_head' : ∀ t d v, Fits t d v → notOpt t → ∃ c u, ser t v = c :: u ∧ isSpace c = false ∧ c ≠ 93 ∧ c ≠ 125 ∧ c ≠ 110
  | .bool, d, v, h, _ => by
    simp only [Fits] at h
    obtain ⟨b, rfl⟩ := h
    simp only [ser]
    cases b
    · exact ⟨_, _, rfl, by decide⟩
    · exact ⟨_, _, rfl, by decide⟩
  | .int sg w, d, v, h, _ => by
    simp only [Fits] at h
    obtain ⟨z, rfl, h⟩ := h
    simp only [ser]
    obtain ⟨c, t, e, hc⟩ := serInt_head h
    refine ⟨c, t, e, digit_notSpace hc, ?_, ?_, ?_⟩
    · rintro rfl; rcases hc with hc | hc; exact absurd hc (by decide); exact absurd hc.2 (by decide)
    · rintro rfl; rcases hc with hc | hc; exact absurd hc (by decide); exact absurd hc.2 (by decide)
    · rintro rfl; rcases hc with hc | hc; exact absurd hc (by decide); exact absurd hc.2 (by decide)
  | .str, d, v, h, _ => by
    simp only [Fits] at h
    obtain ⟨s, rfl, h⟩ := h
    simp only [ser]
    exact ⟨34, _, rfl, by decide⟩
  | .vec t, d, v, h, _ => by
    simp only [Fits] at h
    obtain ⟨l, d', rfl, _⟩ := h
    simp only [ser]
    exact ⟨91, _, rfl, by decide⟩
  | .map t, d, v, h, _ => by
    simp only [Fits] at h
    obtain ⟨l, d', rfl, _⟩ := h
    simp only [ser]
    exact ⟨123, _, rfl, by decide⟩
  | .struct t, d, v, h, _ => by
    simp only [Fits] at h
    obtain ⟨l, d', rfl, _⟩ := h
    simp only [ser]
    exact ⟨123, _, rfl, by decide⟩
  | .opt t, d, v, h, hn => by simp only [notOpt] at hn

theorem ser_head : ∀ t c d v, Room t c → Fits t d v → Head (ser t v) := by
  intro t c d v hr h
  cases t with
  | opt t =>
    simp only [Fits] at h
    simp only [Room] at hr
    rcases h with rfl | ⟨v', rfl, h⟩
    · simp only [ser]; exact ⟨110, _, rfl, by decide⟩
    · simp only [ser]
      obtain ⟨c, u, e, h1, h2, h3, _⟩ := ser_head' t d v' h hr.2.2
      exact ⟨c, u, e, h1, h2, h3⟩
  | bool => obtain ⟨c, u, e, h1, h2, h3, _⟩ := ser_head' _ d v h trivial; exact ⟨c, u, e, h1, h2, h3⟩
  | int _ _ => obtain ⟨c, u, e, h1, h2, h3, _⟩ := ser_head' _ d v h trivial; exact ⟨c, u, e, h1, h2, h3⟩
  | str => obtain ⟨c, u, e, h1, h2, h3, _⟩ := ser_head' _ d v h trivial; exact ⟨c, u, e, h1, h2, h3⟩
  | vec _ => obtain ⟨c, u, e, h1, h2, h3, _⟩ := ser_head' _ d v h trivial; exact ⟨c, u, e, h1, h2, h3⟩
  | map _ => obtain ⟨c, u, e, h1, h2, h3, _⟩ := ser_head' _ d v h trivial; exact ⟨c, u, e, h1, h2, h3⟩
  | struct _ => obtain ⟨c, u, e, h1, h2, h3, _⟩ := ser_head' _ d v h trivial; exact ⟨c, u, e, h1, h2, h3⟩

end Nature.Json
