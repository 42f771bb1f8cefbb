import Verif.Url.Spec
import Verif.Strings.Props
namespace Nature.Url
open Nature Nature.Strings

/-! ### Encoding -/

theorem decode_plain (b : Byte) (hb : b ≠ 37#8) (t : Str) : decode (b :: t) = plus b :: decode t := by
  match t with
  | [] => rw [decode, decode]
  | [x] => rw [decode, decode]
  | x :: y :: r => rw [decode, if_neg hb]

theorem hex_table : ∀ b : Byte, plain b = false → b ≠ 32#8 →
    hexToInt (intToHex ((b >>> 4) &&& 0x0F#8).toNat) = some ((b >>> 4) &&& 0x0F#8).toNat ∧
    hexToInt (intToHex (b &&& 0x0F#8).toNat) = some (b &&& 0x0F#8).toNat ∧
    BitVec.ofNat 8 (((b >>> 4) &&& 0x0F#8).toNat * 16 + (b &&& 0x0F#8).toNat) = b := by decide +kernel

theorem plain_table : ∀ b : Byte, plain b = true → b ≠ 37#8 ∧ plus b = b := by decide +kernel

theorem decode_encodeByte (b : Byte) (t : Str) : decode (encodeByte b ++ t) = b :: decode t := by
  unfold encodeByte
  split
  · rename_i h
    obtain ⟨h1, h2⟩ := plain_table b h
    show decode (b :: t) = _
    rw [decode_plain b h1, h2]
  · rename_i h
    split
    · rename_i h2
      subst h2
      show decode (43#8 :: t) = _
      rw [decode_plain _ (by decide)]
      rfl
    · rename_i h2
      obtain ⟨e1, e2, e3⟩ := hex_table b (by simpa using h) h2
      show decode (37#8 :: _ :: _ :: t) = _
      rw [decode, if_pos rfl, e1, e2]
      simp only
      rw [e3]

theorem decode_encode_append (s t : Str) : decode (encode s ++ t) = s ++ decode t := by
  induction s with
  | nil => rfl
  | cons b s ih =>
    have : encode (b :: s) = encodeByte b ++ encode s := by simp [encode]
    rw [this, List.append_assoc, decode_encodeByte, ih]
    rfl

theorem decode_encode (s : Str) : decode (encode s) = s := by
  have := decode_encode_append s []
  simpa [decode] using this

theorem allowed_table : ∀ b : Byte, ∀ c ∈ encodeByte b,
    (65 ≤ c.toNat ∧ c.toNat ≤ 90) ∨ (97 ≤ c.toNat ∧ c.toNat ≤ 122) ∨ (48 ≤ c.toNat ∧ c.toNat ≤ 57) ∨
    c = 45#8 ∨ c = 95#8 ∨ c = 46#8 ∨ c = 126#8 ∨ c = 43#8 ∨ c = 37#8 := by decide +kernel

theorem encode_allowed (s : Str) : ∀ c ∈ encode s, Allowed c := by
  intro c hc
  obtain ⟨b, _, hb⟩ := List.mem_flatMap.1 hc
  exact allowed_table b c hb

theorem allowed_ne : ∀ c : Byte, Allowed c → c ≠ 61#8 ∧ c ≠ 38#8 := by
  intro c h
  constructor <;> (rintro rfl; revert h; unfold Allowed; decide)

theorem hexdigit_table : ∀ b : Byte, plain b = false → b ≠ 32#8 →
    let a := intToHex ((b >>> 4) &&& 0x0F#8).toNat
    let c := intToHex (b &&& 0x0F#8).toNat
    ((48 ≤ a.toNat ∧ a.toNat ≤ 57) ∨ (65 ≤ a.toNat ∧ a.toNat ≤ 70)) ∧
    ((48 ≤ c.toNat ∧ c.toNat ≤ 57) ∨ (65 ≤ c.toNat ∧ c.toNat ≤ 70)) := by decide +kernel

theorem encode_wellEscaped (s : Str) : WellEscaped (encode s) := by
  induction s with
  | nil => exact .nil
  | cons b s ih =>
    have : encode (b :: s) = encodeByte b ++ encode s := by simp [encode]
    rw [this]
    unfold encodeByte
    split
    · rename_i h
      exact .char _ _ (plain_table b h).1 ih
    · split
      · exact .char _ _ (by decide) ih
      · rename_i h h2
        obtain ⟨h3, h4⟩ := hexdigit_table b (by simpa using h) h2
        exact .esc _ _ _ h3 h4 ih

/-! ### Splitting on one byte -/

theorem findCharFrom_at (s : Str) (c : Byte) : ∀ (p r : Str) (i : Nat), c ∉ p → s.drop i = p ++ c :: r →
    findCharFrom s c (s.length - i) i = .ok ((i + p.length : Nat) : Int) := by
  intro p
  induction p with
  | nil =>
    intro r i _ h
    have hl : i < s.length := by
      have := congrArg List.length h; simp at this; omega
    obtain ⟨f, hf⟩ : ∃ f, s.length - i = f + 1 := ⟨s.length - i - 1, by omega⟩
    rw [hf, findCharFrom, at_lt hl]
    rw [drop_cons hl] at h
    simp only [List.nil_append, List.cons.injEq] at h
    simp [h.1]
  | cons x p ih =>
    intro r i hx h
    have hl : i < s.length := by
      have := congrArg List.length h; simp at this; omega
    obtain ⟨f, hf⟩ : ∃ f, s.length - i = f + 1 := ⟨s.length - i - 1, by omega⟩
    rw [drop_cons hl] at h
    simp only [List.cons_append, List.cons.injEq] at h
    have := ih r (i + 1) (fun hm => hx (List.mem_cons_of_mem _ hm)) h.2
    have hf' : s.length - (i + 1) = f := by omega
    rw [hf'] at this
    rw [hf, findCharFrom, at_lt hl]
    simp only [Res.bind_ok]
    rw [if_neg (by rw [h.1]; intro e; exact hx (e ▸ List.mem_cons_self)), this]
    congr 2
    simp only [List.length_cons]; omega

theorem findCharFrom_none (s : Str) (c : Byte) : ∀ (p : Str) (i : Nat), c ∉ p → s.drop i = p →
    findCharFrom s c (s.length - i) i = .ok (-1) := by
  intro p
  induction p with
  | nil =>
    intro i _ h
    have : s.length - i = 0 := by have := congrArg List.length h; simpa using this
    rw [this]; rfl
  | cons x p ih =>
    intro i hx h
    have hl : i < s.length := by
      have := congrArg List.length h; simp at this; omega
    obtain ⟨f, hf⟩ : ∃ f, s.length - i = f + 1 := ⟨s.length - i - 1, by omega⟩
    rw [drop_cons hl] at h
    simp only [List.cons.injEq] at h
    have := ih (i + 1) (fun hm => hx (List.mem_cons_of_mem _ hm)) h.2
    have hf' : s.length - (i + 1) = f := by omega
    rw [hf'] at this
    rw [hf, findCharFrom, at_lt hl]
    simp only [Res.bind_ok]
    rw [if_neg (by rw [h.1]; intro e; exact hx (e ▸ List.mem_cons_self)), this]

theorem findAfter_one (s : Str) (c : Byte) (i : Nat) :
    findAfter s [c] i = findCharFrom s c (s.length - i) i := by
  unfold findAfter findChar
  simp [at']

/-- Splitting glued pieces gives the pieces back, when no piece contains the
separator and the last one is not empty. -/
theorem splitLoop_glue (s : Str) (c : Byte) : ∀ (parts : List Str) (f i : Nat),
    s.drop i = glue [c] parts → i ≤ s.length → (∀ p ∈ parts, c ∉ p) → parts ≠ [] →
    parts.getLast? ≠ some [] → parts.length < f → splitLoop s [c] f i = .ok parts := by
  intro parts
  induction parts with
  | nil => intro f i _ _ _ h; exact absurd rfl h
  | cons p ps ih =>
    intro f i hd hi hfree _ hlast hf
    obtain ⟨f, rfl⟩ : ∃ f', f = f' + 1 := ⟨f - 1, by simp at hf; omega⟩
    cases ps with
    | nil =>
      simp only [glue] at hd
      have hp : p ≠ [] := by simpa using hlast
      have hl : i < s.length := by
        rcases Nat.lt_or_ge i s.length with h | h
        · exact h
        · rw [List.drop_of_length_le h] at hd; exact absurd hd.symm hp
      rw [splitLoop, if_pos hl, findAfter_one, findCharFrom_none s c p i (hfree p List.mem_cons_self) hd]
      simp only [Res.bind_ok, if_true]
      rw [slice_ok (by omega) (Nat.le_refl _)]
      simp only [Res.bind_ok]
      rw [List.take_of_length_le (by simp), hd]
    | cons q ps =>
      simp only [glue, List.append_assoc] at hd
      have hd' : s.drop i = p ++ c :: glue [c] (q :: ps) := by simpa using hd
      have hlen : s.length - i = p.length + 1 + (glue [c] (q :: ps)).length := by
        have := congrArg List.length hd'; simp at this; omega
      have hl : i < s.length := by omega
      rw [splitLoop, if_pos hl, findAfter_one,
        findCharFrom_at s c p (glue [c] (q :: ps)) i (hfree p List.mem_cons_self) hd']
      simp only [Res.bind_ok]
      rw [if_neg (by omega), slice_ok (by omega) (by omega)]
      simp only [Res.bind_ok, Int.toNat_natCast]
      have hrest : s.drop (i + p.length + [c].length) = glue [c] (q :: ps) := by
        rw [Nat.add_assoc, ← List.drop_drop, hd', show p.length + [c].length = (p ++ [c]).length by simp,
          show p ++ c :: glue [c] (q :: ps) = (p ++ [c]) ++ glue [c] (q :: ps) by simp, List.drop_left]
      rw [ih f (i + p.length + [c].length) hrest (by simp only [List.length_singleton]; omega)
        (fun r hr => hfree r (List.mem_cons_of_mem _ hr)) (by simp)
        (by simpa [List.getLast?_cons_cons] using hlast) (by simp at hf ⊢; omega)]
      simp only [Res.bind_ok]
      rw [hd', show i + p.length - i = p.length by omega, List.take_left' rfl]

theorem glue_ne_nil {c : Byte} {parts : List Str} (h1 : parts ≠ []) (h2 : parts.getLast? ≠ some []) :
    glue [c] parts ≠ [] := by
  match parts with
  | [] => exact absurd rfl h1
  | [p] => simpa [glue] using h2
  | p :: q :: ps => simp [glue]

theorem glue_len (c : Byte) : ∀ parts : List Str, parts.length ≤ (glue [c] parts).length + 1 := by
  intro parts
  induction parts with
  | nil => simp
  | cons p ps ih =>
    cases ps with
    | nil => simp
    | cons q ps => simp only [glue, List.length_append, List.length_cons, List.length_nil] at *; omega

theorem split_glue (c : Byte) (parts : List Str) (hfree : ∀ p ∈ parts, c ∉ p) (h1 : parts ≠ [])
    (h2 : parts.getLast? ≠ some []) : split (glue [c] parts) [c] = .ok parts := by
  have hne := glue_ne_nil (c := c) h1 h2
  unfold split
  rw [if_neg (by simp), if_neg hne, if_neg]
  · have hlen : parts.length ≤ (glue [c] parts).length := by
      -- the last piece is not empty
      clear hfree hne
      induction parts with
      | nil => exact absurd rfl h1
      | cons p ps ih =>
        cases ps with
        | nil =>
          have : p ≠ [] := by simpa using h2
          have := List.length_pos_iff.2 this
          simp only [glue, List.length_cons, List.length_nil]; omega
        | cons q ps =>
          have := ih (by simp) (by simpa [List.getLast?_cons_cons] using h2)
          simp only [glue, List.length_append, List.length_cons, List.length_nil] at *; omega
    exact splitLoop_glue _ c parts _ 0 rfl (Nat.zero_le _) hfree h1 h2 (by omega)
  · have := List.length_pos_iff.2 hne
    simp; exact hne

/-- A string whose only separator is its last byte is one piece. -/
theorem split_trailing (c : Byte) (p : Str) (hp : c ∉ p) : split (p ++ [c]) [c] = .ok [p] := by
  unfold split
  rw [if_neg (by simp), if_neg (by simp), if_neg (by simp)]
  have hl : (p ++ [c]).length + 1 = ((p ++ [c]).length - 1) + 1 + 1 := by simp
  rw [hl, splitLoop, if_pos (by simp), findAfter_one,
    findCharFrom_at (p ++ [c]) c p [] 0 hp (by simp)]
  simp only [Res.bind_ok]
  have hs := slice_ok (s := p ++ [c]) (a := 0) (b := p.length) (by omega) (by simp)
  rw [if_neg (by omega), Nat.zero_add]
  rw [Int.ofNat_zero] at *
  rw [hs]
  simp only [Res.bind_ok, Int.toNat_natCast]
  rw [splitLoop, if_neg (by simp)]
  simp

/-! ### Query -/

theorem encode_free (s : Str) : 61#8 ∉ encode s ∧ 38#8 ∉ encode s :=
  ⟨fun h => (allowed_ne _ (encode_allowed s _ h)).1 rfl, fun h => (allowed_ne _ (encode_allowed s _ h)).2 rfl⟩

theorem encode_eq_nil {s : Str} (h : encode s = []) : s = [] := by
  have := decode_encode s
  rw [h] at this
  simpa [decode] using this.symm

theorem queryPair_build (q : Query) (k v : Str) :
    queryPair q (encode k ++ [61#8] ++ encode v) = .ok (addTo q k v) := by
  unfold queryPair
  by_cases hv : encode v = []
  · rw [hv, List.append_nil, split_trailing _ _ (encode_free k).1]
    have := encode_eq_nil hv
    subst this
    simp [decode_encode, decode]
  · have := split_glue 61#8 [encode k, encode v] (by
      intro p hp
      simp only [List.mem_cons, List.not_mem_nil, or_false] at hp
      rcases hp with rfl | rfl
      · exact (encode_free k).1
      · exact (encode_free v).1) (by simp) (by simpa using hv)
    simp only [glue] at this
    rw [this]
    simp [decode_encode]

theorem queryLoop_build : ∀ (kvs : List (Str × Str)) (q : Query),
    queryLoop (kvs.map fun e => encode e.1 ++ [61#8] ++ encode e.2) q =
      .ok (kvs.foldl (fun q e => addTo q e.1 e.2) q) := by
  intro kvs
  induction kvs with
  | nil => intro q; rfl
  | cons e kvs ih =>
    intro q
    rw [List.map_cons, queryLoop, queryPair_build]
    exact ih _

/-- The values stored for a key. -/
def Query.values (q : Query) (k : Str) : List Str :=
  match q.find? (fun e => decide (e.1 = k)) with
  | some e => e.2
  | none => []

theorem addTo_values (q : Query) (k v k' : Str) :
    Query.values (addTo q k v) k' = if k = k' then Query.values q k' ++ [v] else Query.values q k' := by
  induction q with
  | nil =>
    simp only [addTo, Query.values, List.find?]
    by_cases h : k = k' <;> simp [h]
  | cons e q ih =>
    unfold addTo
    by_cases he : e.1 = k
    · rw [if_pos he]
      by_cases h : k = k'
      · have : e.1 = k' := he.trans h
        simp [Query.values, List.find?, this, h]
      · have : e.1 ≠ k' := fun e' => h (he ▸ e')
        simp [Query.values, List.find?, this, h]
    · rw [if_neg he]
      by_cases h : e.1 = k'
      · have hk : k ≠ k' := fun e' => he (h.trans e'.symm)
        simp [Query.values, List.find?, h, hk]
      · have e1 : Query.values (e :: addTo q k v) k' = Query.values (addTo q k v) k' := by
          simp [Query.values, List.find?, h]
        have e2 : Query.values (e :: q) k' = Query.values q k' := by
          simp [Query.values, List.find?, h]
        rw [e1, e2, ih]

theorem foldl_values (k : Str) : ∀ (kvs : List (Str × Str)) (q : Query),
    Query.values (kvs.foldl (fun q e => addTo q e.1 e.2) q) k = Query.values q k ++ valuesOf kvs k := by
  intro kvs
  induction kvs with
  | nil => intro q; simp [valuesOf]
  | cons e kvs ih =>
    intro q
    rw [List.foldl_cons, ih, addTo_values]
    by_cases h : e.1 = k
    · simp [valuesOf, h]
    · simp [valuesOf, h]

theorem addTo_keys (q : Query) (k v : Str) (h : ∀ e ∈ q, e.2 ≠ []) : ∀ e ∈ addTo q k v, e.2 ≠ [] := by
  induction q with
  | nil => simp [addTo]
  | cons x q ih =>
    unfold addTo
    split
    · intro e he
      rcases List.mem_cons.1 he with rfl | he
      · simp
      · exact h e (List.mem_cons_of_mem _ he)
    · intro e he
      rcases List.mem_cons.1 he with rfl | he
      · exact h _ List.mem_cons_self
      · exact ih (fun e he => h e (List.mem_cons_of_mem _ he)) e he

/-! ### Parse -/

theorem rfind_free {a : Str} {r : Int} (h : LastOcc a [58#8] r) :
    (r = -1 ∧ 58#8 ∉ a) ∨ ∃ (i : Nat) (p q : Str), r = (i : Int) ∧ a = p ++ 58#8 :: q ∧ p.length = i ∧ 58#8 ∉ q := by
  rcases h with ⟨i, hr, ⟨p, q, e, hl⟩, hn⟩ | ⟨hr, hn⟩
  · refine .inr ⟨i, p, q, hr, by simpa using e, hl, ?_⟩
    intro hm
    obtain ⟨x, y, e2⟩ := List.append_of_mem hm
    refine hn (i + 1 + x.length) (by omega) ⟨p ++ 58#8 :: x, y, ?_, ?_⟩
    · rw [e, e2]; simp
    · simp [hl]; omega
  · refine .inl ⟨hr, ?_⟩
    intro hm
    obtain ⟨x, y, e2⟩ := List.append_of_mem hm
    exact hn x.length ⟨x, y, by rw [e2]; simp, rfl⟩

theorem parseAuthority_spec (u : U) (a : Str) (hp : u.port = 0) : ∃ h p, parseAuthority u a =
    .ok { u with authority := a, port := p, hostname := h } ∧ HostPort a h p := by
  obtain ⟨r, e, hl⟩ := C28_rfind a (sub := [58#8]) (by simp)
  unfold parseAuthority
  rw [e]
  simp only [Res.bind_ok]
  rcases rfind_free hl with ⟨hr, hfree⟩ | ⟨i, p, q, hr, ea, hpl, hq⟩
  · subst hr
    refine ⟨a, 0, ?_, .inl ⟨hfree, rfl, rfl⟩⟩
    simp [hp]
  · subst hr
    have hlen : a.length = i + 1 + q.length := by rw [ea]; simp [hpl]; omega
    have e1 : slice a ((i : Int) + 1) a.length = .ok q := by
      have := slice_ok (s := a) (a := i + 1) (b := a.length) (by omega) (Nat.le_refl _)
      rw [Int.natCast_add, Int.natCast_one] at this
      rw [this]
      have hd : a.drop (i + 1) = q := by
        rw [ea, show p ++ 58#8 :: q = (p ++ [58#8]) ++ q by simp]
        exact List.drop_left' (by simp [hpl])
      rw [hd, List.take_of_length_le (by omega)]
    have e2 : slice a 0 (i : Int) = .ok p := by
      have := slice_ok (s := a) (a := 0) (b := i) (by omega) (by omega)
      rw [Int.natCast_zero] at this
      rw [this, ea]
      simp [List.take_left' hpl]
    rw [if_pos (by omega), e1]
    simp only [Res.bind_ok]
    rcases C31_never_misreads q with ht | ⟨v, ht, hd⟩
    · rw [ht]
      simp only [Res.bind_ok]
      rw [e2]
      simp only [Res.bind_ok]
      refine ⟨p, 0, rfl, .inr ⟨q, ea, hq, .inr ⟨rfl, ?_⟩⟩⟩
      intro v hv
      rcases Int.lt_or_le v (-2147483648) with h | h
      · exact .inl h
      · rcases Int.lt_or_le 2147483647 v with h' | h'
        · exact .inr h'
        · rw [C31_reads_partial hv (by omega) (by omega)] at ht; cases ht
    · rw [ht]
      simp only [Res.bind_ok]
      rw [e2]
      exact ⟨p, v, rfl, .inr ⟨q, ea, hq, .inl hd⟩⟩

theorem slice_drop {s : Str} {a b : Nat} (h1 : a ≤ b) (h2 : b ≤ s.length) {x y : Str} (e : s.drop a = x ++ y)
    (hx : x.length = b - a) : slice s a b = .ok x := by
  rw [slice_ok h1 h2, e, List.take_left' hx]

theorem slice_end {s : Str} {a : Nat} (h : a ≤ s.length) : slice s a s.length = .ok (s.drop a) := by
  rw [slice_ok h (Nat.le_refl _), List.take_of_length_le (by simp)]

theorem loop_fragment (url : Str) : ∀ (f i start : Nat) (u : U), url.length < f + i → i ≤ url.length →
    start ≤ i → loop url f i .fragment start u = .ok { u with fragment := url.drop start } := by
  intro f
  induction f with
  | zero => intro i start u h1 h2; omega
  | succ f ih =>
    intro i start u h1 h2 h3
    rw [loop]
    split
    · rename_i h
      rw [at_lt h]
      simp only [Res.bind_ok]
      exact ih (i + 1) start u (by omega) (by omega) (by omega)
    · rw [finish, slice_end (by omega)]
      rfl

/-- What the parser does with the rest of the input in the query state; `pre` is
what it has seen of the query. -/
theorem loop_query (url : Str) : ∀ (f i start : Nat) (u : U) (pre rest : Str), url.length < f + i → i ≤ url.length →
    start ≤ i → url.drop start = pre ++ rest → pre.length = i - start → 35#8 ∉ pre →
    ∃ (q : Str) (fr : Option Str), pre ++ rest = q ++ (match fr with | some x => 35#8 :: x | none => []) ∧
      35#8 ∉ q ∧ loop url f i .query start u =
        .ok { u with rawQuery := q, fragment := match fr with | some x => x | none => u.fragment } := by
  intro f
  induction f with
  | zero => intro i start u pre rest h1 h2; omega
  | succ f ih =>
    intro i start u pre rest h1 h2 h3 hd hl hfree
    rw [loop]
    split
    · rename_i h
      rw [at_lt h]
      simp only [Res.bind_ok]
      have hr : rest = url[i] :: url.drop (i + 1) := by
        have : url.drop i = rest := by
          have e : url.drop i = (url.drop start).drop (i - start) := by rw [List.drop_drop]; congr 1; omega
          rw [e, hd, List.drop_left' hl]
        rw [← this, drop_cons h]
      split
      · rename_i hc
        rw [slice_drop h3 h2 hd hl]
        simp only [Res.bind_ok]
        rw [loop_fragment url f (i + 1) (i + 1) _ (by omega) (by omega) (Nat.le_refl _)]
        refine ⟨pre, some (url.drop (i + 1)), ?_, hfree, rfl⟩
        rw [hr, hc]
      · rename_i hc
        obtain ⟨q, fr, e1, e2, e3⟩ := ih (i + 1) start u (pre ++ [url[i]]) (url.drop (i + 1)) (by omega) (by omega) (by omega)
          (by rw [hd, hr]; simp) (by simp; omega)
          (by simp only [List.mem_append, List.mem_singleton, not_or]; exact ⟨hfree, fun e => hc e.symm⟩)
        exact ⟨q, fr, by rw [← e1, hr]; simp, e2, e3⟩
    · have hi : i = url.length := by omega
      have hn : rest = [] := by
        have := congrArg List.length hd
        simp at this
        exact List.eq_nil_of_length_eq_zero (by omega)
      subst hn
      rw [finish, slice_end (by omega)]
      refine ⟨pre, none, by simp, hfree, ?_⟩
      simp [hd]

theorem loop_path (url : Str) : ∀ (f i start : Nat) (u : U) (pre rest : Str), url.length < f + i → i ≤ url.length →
    start ≤ i → url.drop start = pre ++ rest → pre.length = i - start → (∀ c ∈ pre, c ≠ 63#8 ∧ c ≠ 35#8) →
    ∃ (p : Str) (q fr : Option Str), pre ++ rest = p ++ (match q with | some x => 63#8 :: x | none => []) ++
        (match fr with | some x => 35#8 :: x | none => []) ∧
      (∃ t, p = pre ++ t) ∧ (∀ c ∈ p, c ≠ 63#8 ∧ c ≠ 35#8) ∧ (∀ x, q = some x → 35#8 ∉ x) ∧ loop url f i .path start u =
        .ok { u with path := p, rawQuery := (match q with | some x => x | none => u.rawQuery),
                     fragment := (match fr with | some x => x | none => u.fragment) } := by
  intro f
  induction f with
  | zero => intro i start u pre rest h1 h2; omega
  | succ f ih =>
    intro i start u pre rest h1 h2 h3 hd hl hfree
    rw [loop]
    split
    · rename_i h
      rw [at_lt h]
      simp only [Res.bind_ok]
      have hr : rest = url[i] :: url.drop (i + 1) := by
        have : url.drop i = rest := by
          have e : url.drop i = (url.drop start).drop (i - start) := by rw [List.drop_drop]; congr 1; omega
          rw [e, hd, List.drop_left' hl]
        rw [← this, drop_cons h]
      split
      · rename_i hc
        rw [slice_drop h3 h2 hd hl]
        simp only [Res.bind_ok]
        obtain ⟨q, fr, e1, e2, e3⟩ := loop_query url f (i + 1) (i + 1) { u with path := pre } [] (url.drop (i + 1)) (by omega)
          (by omega) (Nat.le_refl _) (by simp) (by simp) (by simp)
        rw [e3]
        refine ⟨pre, some q, fr, ?_, ⟨[], by simp⟩, hfree, ?_, rfl⟩
        · rw [hr, hc]
          simp only [List.nil_append] at e1
          rw [e1]; simp
        · intro x hx; cases hx; exact e2
      · split
        · rename_i hc0 hc
          rw [slice_drop h3 h2 hd hl]
          simp only [Res.bind_ok]
          rw [loop_fragment url f (i + 1) (i + 1) _ (by omega) (by omega) (Nat.le_refl _)]
          refine ⟨pre, none, some (url.drop (i + 1)), ?_, ⟨[], by simp⟩, hfree, by simp, rfl⟩
          rw [hr, hc]; simp
        · rename_i hc0 hc
          obtain ⟨p, q, fr, e1, ⟨t, e0⟩, e2, e3, e4⟩ := ih (i + 1) start u (pre ++ [url[i]]) (url.drop (i + 1)) (by omega)
            (by omega) (by omega) (by rw [hd, hr]; simp) (by simp; omega)
            (by
              intro c hcm
              rcases List.mem_append.1 hcm with hcm | hcm
              · exact hfree c hcm
              · rw [List.mem_singleton] at hcm; subst hcm; exact ⟨hc0, hc⟩)
          exact ⟨p, q, fr, by rw [← e1, hr]; simp, ⟨url[i] :: t, by rw [e0]; simp⟩, e2, e3, e4⟩
    · have hi : i = url.length := by omega
      have hn : rest = [] := by
        have := congrArg List.length hd
        simp at this
        exact List.eq_nil_of_length_eq_zero (by omega)
      subst hn
      rw [finish, slice_end (by omega)]
      refine ⟨pre, none, none, by simp, ⟨[], by simp⟩, hfree, by simp, ?_⟩
      simp [hd]

theorem loop_authority (url : Str) : ∀ (f i start : Nat) (u : U) (pre rest : Str), url.length < f + i → i ≤ url.length →
    start ≤ i → url.drop start = pre ++ rest → pre.length = i - start →
    (∀ c ∈ pre, c ≠ 47#8 ∧ c ≠ 63#8 ∧ c ≠ 35#8) → u = { scheme := u.scheme } →
    ∃ (a p : Str) (q fr : Option Str) (h : Str) (port : Int),
      pre ++ rest = a ++ p ++ (match q with | some x => 63#8 :: x | none => []) ++
        (match fr with | some x => 35#8 :: x | none => []) ∧
      (∀ c ∈ a, c ≠ 47#8 ∧ c ≠ 63#8 ∧ c ≠ 35#8) ∧ (∀ c ∈ p, c ≠ 63#8 ∧ c ≠ 35#8) ∧ (p = [] ∨ ∃ t, p = 47#8 :: t) ∧
      (∀ x, q = some x → 35#8 ∉ x) ∧ HostPort a h port ∧ loop url f i .authority start u =
        .ok { scheme := u.scheme, authority := a, hostname := h, port := port, path := p,
              rawQuery := (match q with | some x => x | none => []),
              fragment := (match fr with | some x => x | none => []) } := by
  intro f
  induction f with
  | zero => intro i start u pre rest h1 h2; omega
  | succ f ih =>
    intro i start u pre rest h1 h2 h3 hd hl hfree hu
    obtain ⟨h, port, ea, hp⟩ := parseAuthority_spec u pre (by rw [hu])
    rw [loop]
    split
    · rename_i hlt
      rw [at_lt hlt]
      simp only [Res.bind_ok]
      have hr : rest = url[i] :: url.drop (i + 1) := by
        have : url.drop i = rest := by
          have e : url.drop i = (url.drop start).drop (i - start) := by rw [List.drop_drop]; congr 1; omega
          rw [e, hd, List.drop_left' hl]
        rw [← this, drop_cons hlt]
      split
      · rename_i hc
        rw [slice_drop h3 h2 hd hl]
        simp only [Res.bind_ok]
        rw [ea]
        simp only [Res.bind_ok]
        obtain ⟨p, q, fr, e1, ⟨t, e0⟩, e2, e3, e4⟩ := loop_path url f (i + 1) i
          { u with authority := pre, port := port, hostname := h } [47#8] (url.drop (i + 1)) (by omega) (by omega) (by omega)
          (by rw [drop_cons hlt, hc]; rfl) (by simp) (by simp)
        rw [e4]
        refine ⟨pre, p, q, fr, h, port, ?_, hfree, e2, .inr ⟨t, e0⟩, e3, hp, ?_⟩
        · rw [hr, hc, List.append_assoc, List.append_assoc, ← List.append_assoc p, ← e1]; rfl
        · rw [hu]
      · split
        · rename_i hc0 hc
          rw [slice_drop h3 h2 hd hl]
          simp only [Res.bind_ok]
          rw [ea]
          simp only [Res.bind_ok]
          obtain ⟨q, fr, e1, e2, e3⟩ := loop_query url f (i + 1) (i + 1)
            { u with authority := pre, port := port, hostname := h } [] (url.drop (i + 1)) (by omega)
            (by omega) (Nat.le_refl _) (by simp) (by simp) (by simp)
          rw [e3]
          refine ⟨pre, [], some q, fr, h, port, ?_, hfree, by simp, .inl rfl, ?_, hp, ?_⟩
          · rw [hr, hc]
            simp only [List.nil_append] at e1
            rw [e1]; simp
          · intro x hx; cases hx; exact e2
          · rw [hu]
        · split
          · rename_i hc1 hc0 hc
            rw [slice_drop h3 h2 hd hl]
            simp only [Res.bind_ok]
            rw [ea]
            simp only [Res.bind_ok]
            rw [loop_fragment url f (i + 1) (i + 1) _ (by omega) (by omega) (Nat.le_refl _)]
            refine ⟨pre, [], none, some (url.drop (i + 1)), h, port, ?_, hfree, by simp, .inl rfl, by simp, hp, ?_⟩
            · rw [hr, hc]; simp
            · rw [hu]
          · rename_i hc1 hc0 hc
            obtain ⟨a, p, q, fr, h, port, e1, e2, e3, e4, e5, e6, e7⟩ := ih (i + 1) start u (pre ++ [url[i]])
              (url.drop (i + 1)) (by omega)
              (by omega) (by omega) (by rw [hd, hr]; simp) (by simp; omega)
              (by
                intro c hcm
                rcases List.mem_append.1 hcm with hcm | hcm
                · exact hfree c hcm
                · rw [List.mem_singleton] at hcm; subst hcm; exact ⟨hc1, hc0, hc⟩) hu
            exact ⟨a, p, q, fr, h, port, by rw [← e1, hr]; simp, e2, e3, e4, e5, e6, e7⟩
    · have hi : i = url.length := by omega
      have hn : rest = [] := by
        have := congrArg List.length hd
        simp at this
        exact List.eq_nil_of_length_eq_zero (by omega)
      subst hn
      rw [finish, slice_end (by omega), hd, List.append_nil]
      simp only [Res.bind_ok]
      rw [ea]
      refine ⟨pre, [], none, none, h, port, by simp, hfree, by simp, .inl rfl, by simp, hp, ?_⟩
      rw [hu]

/-- The scheme state: either the first colon is followed by `//`, or the call throws. -/
theorem loop_scheme (url : Str) : ∀ (f i : Nat) (pre rest : Str), url.length < f + i → i ≤ url.length →
    url = pre ++ rest → pre.length = i → 58#8 ∉ pre →
    (loop url f i .scheme 0 {} = .throws ∧ ¬ ∃ s t, url = s ++ [58#8, 47#8, 47#8] ++ t ∧ 58#8 ∉ s) ∨
    ∃ (s a p : Str) (q fr : Option Str) (h : Str) (port : Int),
      Shape url s a p q fr ∧ HostPort a h port ∧ loop url f i .scheme 0 {} =
        .ok { scheme := s, authority := a, hostname := h, port := port, path := p,
              rawQuery := (match q with | some x => x | none => []),
              fragment := (match fr with | some x => x | none => []) } := by
  intro f
  induction f with
  | zero => intro i pre rest h1 h2; omega
  | succ f ih =>
    intro i pre rest h1 h2 hd hl hfree
    rw [loop]
    split
    · rename_i hlt
      rw [at_lt hlt]
      simp only [Res.bind_ok]
      have hr : rest = url[i] :: url.drop (i + 1) := by
        have : url.drop i = rest := by
          have := congrArg (List.drop i) hd
          rw [List.drop_left' hl] at this; exact this
        rw [← this, drop_cons hlt]
      have full : url = pre ++ url[i] :: url.drop (i + 1) := hd.trans (congrArg (pre ++ ·) hr)
      split
      · rename_i hc
        rw [slice_drop (Nat.zero_le _) h2 (x := pre) (y := rest) (by simpa using hd) (by omega)]
        simp only [Res.bind_ok]
        -- the scheme of any decomposition is the prefix before this colon
        have uniq : ∀ s t, url = s ++ [58#8, 47#8, 47#8] ++ t → 58#8 ∉ s →
            i + 2 < url.length ∧ url.drop (i + 1) = 47#8 :: 47#8 :: t := by
          intro s t e hs
          have e' : pre ++ 58#8 :: url.drop (i + 1) = s ++ 58#8 :: ([47#8, 47#8] ++ t) := by
            have h0 := full.symm.trans e
            rw [hc] at h0
            simpa using h0
          have hsp : s = pre := by
            have h3 := congrArg (List.takeWhile (fun c => decide (c ≠ 58#8))) e'
            rw [List.takeWhile_append_of_pos (by intro x hx; simp; rintro rfl; exact hfree hx),
              List.takeWhile_append_of_pos (by intro x hx; simp; rintro rfl; exact hs hx)] at h3
            simpa using h3.symm
          subst hsp
          have := List.append_cancel_left e'
          simp only [List.cons.injEq, true_and] at this
          refine ⟨?_, by rw [this]; rfl⟩
          have := congrArg List.length this
          simp at this; omega
        split
        · rename_i h3
          rw [at_lt (by omega : i + 1 < url.length)]
          simp only [Res.bind_ok]
          rw [at_lt h3]
          simp only [Res.bind_ok]
          have hd1 : url.drop (i + 1) = url[i + 1] :: url[i + 2] :: url.drop (i + 3) := by
            rw [drop_cons (by omega : i + 1 < url.length), drop_cons h3]
          split
          · rename_i hcc
            obtain ⟨a, p, q, fr, h, port, e1, e2, e3, e4, e5, e6, e7⟩ := loop_authority url f (i + 3) (i + 3)
              { scheme := pre } [] (url.drop (i + 3)) (by omega) (by omega) (Nat.le_refl _) (by simp) (by simp) (by simp) rfl
            refine .inr ⟨pre, a, p, q, fr, h, port, ⟨?_, hfree, e2, e3, e4, e5⟩, e6, e7⟩
            rw [List.nil_append] at e1
            refine full.trans ?_
            rw [hc, hd1, hcc.1, hcc.2, e1]
            cases q <;> cases fr <;> simp
          · rename_i hcc
            refine .inl ⟨rfl, ?_⟩
            rintro ⟨s, t, e, hs⟩
            have := (uniq s t e hs).2
            rw [hd1] at this
            simp only [List.cons.injEq] at this
            exact hcc ⟨this.1, this.2.1⟩
        · rename_i h3
          refine .inl ⟨rfl, ?_⟩
          rintro ⟨s, t, e, hs⟩
          exact h3 (uniq s t e hs).1
      · rename_i hc
        exact ih (i + 1) (pre ++ [url[i]]) (url.drop (i + 1)) (by omega) (by omega)
          (by rw [List.append_assoc]; exact full) (by simp [hl])
          (by simp only [List.mem_append, List.mem_singleton, not_or]; exact ⟨hfree, fun e => hc e.symm⟩)
    · refine .inl ⟨rfl, ?_⟩
      rintro ⟨s, t, e, hs⟩
      have hn : rest = [] := by
        have := congrArg List.length hd
        simp at this
        exact List.eq_nil_of_length_eq_zero (by omega)
      rw [hn, List.append_nil] at hd
      apply hfree
      rw [← hd, e]; simp

end Nature.Url
