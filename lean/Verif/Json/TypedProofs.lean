import Verif.Json.TypedLemmas
namespace Nature.Json

theorem consume_head {c : Byte} (l : List Byte) (hc : isSpace c = false) (r : List Byte) : consume (c :: l) (c :: l ++ r) = some r :=
  consume_complete (a := []) ws_nil hc r

theorem consume_one {c : Byte} (hc : isSpace c = false) (r : List Byte) : consume [c] (c :: r) = some r := consume_head [] hc r

theorem consume_other {c d : Byte} (r : List Byte) (hs : isSpace d = false) (hd : d ≠ c) : consume [c] (d :: r) = none :=
  consume_none (a := []) ws_nil hs hd

theorem name_chars : ∀ {n : List Byte}, Name n → Chars n n := by
  intro n
  induction n with
  | nil => intro _; exact .nil
  | cons c n ih =>
    intro h
    obtain ⟨h1, h2, h3, h4⟩ := h c List.mem_cons_self
    exact .plain c h1 h2 h3 h4 (ih fun d hd => h d (List.mem_cons_of_mem _ hd))

theorem key_string {k : List Byte} (h : ValidUtf8 k) (r : List Byte) : parserString (serializeString k ++ r) = some (k, r) := by
  have := string_complete (a := []) ws_nil (body_chars (clean_of_valid h) k.length (Nat.le_refl _)) r
  rw [← this, serializeString]
  simp

/-! ### Vectors -/

theorem commas_cons (t : List Byte) {ts : List (List Byte)} (h : ts ≠ []) : commas (t :: ts) = t ++ 44 :: commas ts := by
  cases ts with
  | nil => exact absurd rfl h
  | cons u us => rfl

theorem commas_length : ∀ ts : List (List Byte), ts.length ≤ (commas ts).length + 1 := by
  intro ts
  induction ts with
  | nil => simp
  | cons t ts ih =>
    by_cases h : ts = []
    · subst h; simp
    · rw [commas_cons t h]
      simp only [List.length_append, List.length_cons]
      omega

theorem head_commas {l : List Byte} (h : Head l) (ts : List (List Byte)) (r : List Byte) : Head (commas (l :: ts) ++ r) := by
  obtain ⟨c, u, rfl, h⟩ := h
  by_cases hts : ts = []
  · subst hts; exact ⟨c, u ++ r, rfl, h⟩
  · rw [commas_cons _ hts]; exact ⟨c, _, rfl, h⟩

def Reads (t : Ty) (d : Nat) (pe : Cell → List Byte → Res (Cell × List Byte)) : Prop :=
  ∀ c v r, Room t c → Fits t d v → Stop r → ∃ c', pe c (ser t v ++ r) = .ok (c', r) ∧ Holds t c' v

theorem grow_get (zero : Cell) (mem : List Cell) (i : Nat) :
    (i < mem.length → (grow zero true mem.length mem)[i]? = mem[i]?) ∧
    (mem.length ≤ i → ∀ e, (grow zero true mem.length mem)[i]? = some e → e = zero) ∧ mem.length < (grow zero true mem.length mem).length := by
  simp only [grow, if_true, List.take_length]
  refine ⟨fun h => ?_, fun h e he => ?_, ?_⟩
  · rw [List.getElem?_append_left h]
  · rw [List.getElem?_append_right h] at he
    exact (List.mem_replicate.1 (List.mem_of_getElem? he)).2
  · rw [List.length_append, List.length_replicate]
    split <;> omega

/-- A slot for the next element, whatever the capacity. -/
theorem slot {t : Ty} (hz : Room t (zeroOf t)) {done : List TVal} {mem : List Cell} (hl : done.length ≤ mem.length)
    (h1 : ∀ i (h : i < done.length), ∃ e, mem[i]? = some e ∧ Holds t e done[i])
    (h2 : ∀ i e, done.length ≤ i → mem[i]? = some e → Room t e) :
    ∃ mem', (if done.length = mem.length then grow (zeroOf t) true done.length mem else mem) = mem' ∧ done.length < mem'.length ∧
      (∀ i (h : i < done.length), ∃ e, mem'[i]? = some e ∧ Holds t e done[i]) ∧
      (∀ i e, done.length ≤ i → mem'[i]? = some e → Room t e) := by
  by_cases he : done.length = mem.length
  · rw [if_pos he, show grow (zeroOf t) true done.length mem = grow (zeroOf t) true mem.length mem by rw [he]]
    refine ⟨_, rfl, by rw [he]; exact (grow_get _ _ 0).2.2, fun i h => ?_, fun i e hi hg => ?_⟩
    · obtain ⟨e, e1, e2⟩ := h1 i (by omega)
      exact ⟨e, by rw [(grow_get _ _ i).1 (by omega)]; exact e1, e2⟩
    · rw [(grow_get _ _ i).2.1 (by omega) e hg]; exact hz
  · rw [if_neg he]
    exact ⟨_, rfl, by omega, h1, h2⟩

theorem vec_loop {t : Ty} {d : Nat} {pe} (hpe : Reads t d pe) (hz : Room t (zeroOf t)) :
    ∀ (l : List TVal) (x : TVal) (done : List TVal) (mem : List Cell) (n : Nat) (r : List Byte), (∀ y ∈ x :: l, Fits t d y) →
      done.length ≤ mem.length → (∀ i (h : i < done.length), ∃ e, mem[i]? = some e ∧ Holds t e done[i]) →
      (∀ i e, done.length ≤ i → mem[i]? = some e → Room t e) → l.length < n →
      ∃ mem', vecLoop pe (zeroOf t) true n done.length mem (commas ((x :: l).map (ser t)) ++ 93 :: r) =
          .ok (.vec true (done ++ x :: l).length mem', r) ∧
        ∀ i (h : i < (done ++ x :: l).length), ∃ e, mem'[i]? = some e ∧ Holds t e (done ++ x :: l)[i] := by
  intro l
  induction l with
  | nil =>
    intro x done mem n r hf hl h1 h2 hn
    obtain ⟨n, rfl⟩ : ∃ k, n = k + 1 := ⟨n - 1, by simp at hn; omega⟩
    obtain ⟨mem', em, hlt, g1, g2⟩ := slot hz hl h1 h2
    have hget : mem'[done.length]? = some mem'[done.length] := List.getElem?_eq_getElem hlt
    have hroom := g2 _ _ (Nat.le_refl _) hget
    obtain ⟨c', e1, e2⟩ := hpe _ x (93 :: r) hroom (hf x List.mem_cons_self) (stop_cons r (by decide))
    refine ⟨mem'.set done.length c', ?_, ?_⟩
    · rw [vecLoop]
      rw [em, List.getD_eq_getElem?_getD, hget, Option.getD_some]
      simp only [List.map_cons, List.map_nil, commas]
      rw [e1]
      simp only [Res.bind_ok]
      rw [consume_one (by decide)]
      simp
    · intro i h
      rw [List.length_append, List.length_cons, List.length_nil] at h
      rw [List.getElem?_set]
      by_cases hi : done.length = i
      · subst hi
        rw [if_pos rfl, if_pos hlt]
        exact ⟨c', rfl, by simpa using e2⟩
      · rw [if_neg hi]
        obtain ⟨e, a1, a2⟩ := g1 i (by omega)
        exact ⟨e, a1, by rw [List.getElem_append_left (by omega)]; exact a2⟩
  | cons y l ih =>
    intro x done mem n r hf hl h1 h2 hn
    obtain ⟨n, rfl⟩ : ∃ k, n = k + 1 := ⟨n - 1, by simp at hn; omega⟩
    obtain ⟨mem', em, hlt, g1, g2⟩ := slot hz hl h1 h2
    have hget : mem'[done.length]? = some mem'[done.length] := List.getElem?_eq_getElem hlt
    have hroom := g2 _ _ (Nat.le_refl _) hget
    obtain ⟨c', e1, e2⟩ := hpe _ x (44 :: (commas ((y :: l).map (ser t)) ++ 93 :: r)) hroom (hf x List.mem_cons_self)
      (stop_cons _ (by decide))
    have hd : (done ++ [x]).length = done.length + 1 := by simp
    obtain ⟨mem2, b1, b2⟩ := ih y (done ++ [x]) (mem'.set done.length c') n r (fun z hz => hf z (List.mem_cons_of_mem _ hz))
      (by rw [hd, List.length_set]; omega) (by
        intro i h
        rw [hd] at h
        rw [List.getElem?_set]
        by_cases hi : done.length = i
        · subst hi
          rw [if_pos rfl, if_pos hlt]
          exact ⟨c', rfl, by simpa using e2⟩
        · rw [if_neg hi]
          obtain ⟨e, a1, a2⟩ := g1 i (by omega)
          exact ⟨e, a1, by rw [List.getElem_append_left (by omega)]; exact a2⟩) (by
        intro i e hi he
        rw [hd] at hi
        rw [List.getElem?_set, if_neg (by omega)] at he
        exact g2 i e (by omega) he) (by simp at hn ⊢; omega)
    refine ⟨mem2, ?_, ?_⟩
    · rw [vecLoop]
      rw [em, List.getD_eq_getElem?_getD, hget, Option.getD_some]
      rw [List.map_cons, commas_cons _ (by simp), List.append_assoc, List.cons_append, e1]
      simp only [Res.bind_ok]
      rw [consume_other _ (by decide) (by decide), consume_one (by decide)]
      simp only [lift, Res.bind_ok]
      rw [hd] at b1
      rw [b1]
      simp
    · simpa using b2

/-! ### Maps -/

theorem cellAt_new {zero : Cell} {k : List Byte} : ∀ {es : List (List Byte × Cell)}, k ∉ es.map Prod.fst → cellAt zero k es = zero := by
  intro es
  induction es with
  | nil => intro _; rfl
  | cons e es ih =>
    intro h
    rw [List.map_cons, List.mem_cons, not_or] at h
    rw [cellAt, if_neg (fun hh => h.1 hh.symm), ih h.2]

theorem putCell_new {k : List Byte} {c : Cell} : ∀ {es : List (List Byte × Cell)}, k ∉ es.map Prod.fst → putCell k c es = es ++ [(k, c)] := by
  intro es
  induction es with
  | nil => intro _; rfl
  | cons e es ih =>
    intro h
    rw [List.map_cons, List.mem_cons, not_or] at h
    rw [putCell, if_neg (fun hh => h.1 hh.symm), ih h.2]; rfl

def HoldsMap (t : Ty) (es : List (List Byte × Cell)) (m : List (List Byte × TVal)) : Prop :=
  es.length = m.length ∧ ∀ i (h1 : i < es.length) (h2 : i < m.length), es[i].1 = m[i].1 ∧ Holds t es[i].2 m[i].2

theorem holdsMap_keys {t : Ty} {es : List (List Byte × Cell)} {m : List (List Byte × TVal)} (h : HoldsMap t es m) :
    es.map Prod.fst = m.map Prod.fst := by
  refine List.ext_getElem (by simpa using h.1) fun i h1 h2 => ?_
  rw [List.getElem_map, List.getElem_map]
  exact (h.2 i (by simpa using h1) (by simpa using h2)).1

theorem holdsMap_snoc {t : Ty} {es : List (List Byte × Cell)} {m : List (List Byte × TVal)} (h : HoldsMap t es m) {k : List Byte} {c : Cell}
    {v : TVal} (hc : Holds t c v) : HoldsMap t (es ++ [(k, c)]) (m ++ [(k, v)]) := by
  refine ⟨by simp [h.1], fun i h1 h2 => ?_⟩
  have hl := h.1
  by_cases hi : i < es.length
  · rw [List.getElem_append_left hi, List.getElem_append_left (by omega)]
    exact h.2 i hi (by omega)
  · simp only [List.length_append, List.length_cons, List.length_nil] at h1
    obtain rfl : i = es.length := by omega
    have e1 : (es ++ [(k, c)])[es.length] = (k, c) := by simp
    have e2 : (m ++ [(k, v)])[es.length] = (k, v) := by
      rw [List.getElem_append_right (by omega)]; simp [hl]
    rw [e1, e2]
    exact ⟨rfl, hc⟩

theorem map_loop {t : Ty} {d : Nat} {pe} (hpe : Reads t d pe) (hz : Room t (zeroOf t)) :
    ∀ (l : List (List Byte × TVal)) (x : List Byte × TVal) (done : List (List Byte × TVal)) (es : List (List Byte × Cell)) (n : Nat)
      (r : List Byte), (∀ y ∈ x :: l, ValidUtf8 y.1 ∧ Fits t d y.2) → ((done ++ x :: l).map Prod.fst).Nodup → HoldsMap t es done →
      l.length < n →
      ∃ es', mapLoop pe (zeroOf t) true n es (commas ((x :: l).map fun e => serializeString e.1 ++ 58 :: ser t e.2) ++ 125 :: r) =
          .ok (.map true es', r) ∧ HoldsMap t es' (done ++ x :: l) := by
  intro l
  induction l with
  | nil =>
    intro x done es n r hf hnd hh hn
    obtain ⟨n, rfl⟩ : ∃ k, n = k + 1 := ⟨n - 1, by simp at hn; omega⟩
    obtain ⟨hv, hfit⟩ := hf x List.mem_cons_self
    have hnew : x.1 ∉ es.map Prod.fst := by
      rw [holdsMap_keys hh]
      rw [List.map_append, List.nodup_append] at hnd
      intro hm
      exact hnd.2.2 _ hm _ (by simp) rfl
    obtain ⟨c', e1, e2⟩ := hpe (zeroOf t) x.2 (125 :: r) hz hfit (stop_cons r (by decide))
    refine ⟨es ++ [(x.1, c')], ?_, holdsMap_snoc hh e2⟩
    rw [mapLoop]
    simp only [List.map_cons, List.map_nil, commas]
    rw [List.append_assoc, key_string hv]
    simp only [lift, Res.bind_ok]
    rw [if_neg (by decide), show (58 :: ser t x.2) ++ 125 :: r = 58 :: (ser t x.2 ++ 125 :: r) from rfl, consume_one (by decide)]
    simp only [Res.bind_ok]
    rw [cellAt_new hnew, e1]
    simp only [Res.bind_ok]
    rw [consume_one (by decide), putCell_new hnew]
  | cons y l ih =>
    intro x done es n r hf hnd hh hn
    obtain ⟨n, rfl⟩ : ∃ k, n = k + 1 := ⟨n - 1, by simp at hn; omega⟩
    obtain ⟨hv, hfit⟩ := hf x List.mem_cons_self
    have hnew : x.1 ∉ es.map Prod.fst := by
      rw [holdsMap_keys hh]
      rw [List.map_append, List.nodup_append] at hnd
      intro hm
      exact hnd.2.2 _ hm _ (by simp) rfl
    obtain ⟨c', e1, e2⟩ := hpe (zeroOf t) x.2
      (44 :: (commas ((y :: l).map fun e => serializeString e.1 ++ 58 :: ser t e.2) ++ 125 :: r)) hz hfit (stop_cons _ (by decide))
    obtain ⟨es', b1, b2⟩ := ih y (done ++ [x]) (es ++ [(x.1, c')]) n r (fun z hz => hf z (List.mem_cons_of_mem _ hz))
      (by simpa using hnd) (holdsMap_snoc hh e2) (by simp at hn ⊢; omega)
    refine ⟨es', ?_, by simpa using b2⟩
    rw [mapLoop, List.map_cons, commas_cons _ (by simp), List.append_assoc, List.append_assoc, key_string hv]
    simp only [lift, Res.bind_ok]
    rw [if_neg (by decide), show ∀ z : List Byte, (58 :: ser t x.2) ++ z = 58 :: (ser t x.2 ++ z) from fun _ => rfl, consume_one (by decide)]
    simp only [Res.bind_ok]
    rw [cellAt_new hnew, List.cons_append, e1]
    simp only [Res.bind_ok]
    rw [consume_other _ (by decide) (by decide), consume_one (by decide)]
    simp only [Res.bind_ok]
    rw [putCell_new hnew, b1]

/-! ### All types -/

theorem desField_head {O : F64} {name : List Byte} {t : Ty} {rest : Fields} {d : Nat} {c : Cell} {cs : List Cell} {s : List Byte} :
    desField O (.cons name t rest) d name (c :: cs) s = some ((des O t d c s).bind fun p => .ok (p.1 :: cs, p.2)) := by
  rw [desField, if_pos rfl]

theorem desField_tail {O : F64} {name key : List Byte} {t : Ty} {rest : Fields} {d : Nat} {c : Cell} {cs : List Cell} {s : List Byte}
    (h : name ≠ key) : desField O (.cons name t rest) d key (c :: cs) s =
      (desField O rest d key cs s).map fun r => r.bind fun p => .ok (c :: p.1, p.2) := by
  rw [desField, if_neg h]

theorem map_bind_bind {α : Type} (o : Option (Res (List Cell × α))) (c : Cell) (cp : List Cell) :
    (o.map fun r => r.bind fun p => .ok (c :: p.1, p.2)).map (fun r => r.bind fun p => .ok (cp ++ p.1, p.2)) =
    o.map fun r => r.bind fun p => .ok ((cp ++ [c]) ++ p.1, p.2) := by
  cases o with
  | none => rfl
  | some r => cases r <;> simp

mutual
theorem des_ser {O : F64} (hO : O.Exact) : ∀ (t : Ty) (d : Nat), Reads t d (des O t d)
  | .bool, d => by
    intro c v r _ hf hr
    simp only [Fits] at hf
    obtain ⟨b, rfl⟩ := hf
    simp only [des, ser, Holds]
    cases b
    · refine ⟨.bool false, ?_, false, rfl, rfl⟩
      rw [if_neg (by decide)]
      rw [show consume [116, 114, 117, 101] ([102, 97, 108, 115, 101] ++ r) = none from rfl, consume_head _ (by decide)]
      rfl
    · refine ⟨.bool true, ?_, true, rfl, rfl⟩
      rw [if_pos rfl, consume_head _ (by decide)]
  | .int sg w, d => by
    intro c v r _ hf hr
    simp only [Fits] at hf
    obtain ⟨z, rfl, hz⟩ := hf
    simp only [des, ser, Holds]
    obtain ⟨f, e1, e2⟩ := serInt_number hO hz hr
    refine ⟨.int z, ?_, z, rfl, rfl⟩
    rw [e1, ← e2]
    rfl
  | .str, d => by
    intro c v r _ hf hr
    simp only [Fits] at hf
    obtain ⟨s, rfl, hs⟩ := hf
    simp only [des, ser, Holds]
    refine ⟨.str s, ?_, s, rfl, rfl⟩
    rw [key_string hs]
    rfl
  | .vec t, d => by
    intro c v r hc hf hr
    simp only [Fits] at hf
    obtain ⟨l, d', rfl, rfl, hl⟩ := hf
    simp only [Room] at hc
    obtain ⟨len, mem, rfl, hm, hz⟩ := hc
    simp only [des, ser, Holds]
    rw [show 91 :: (commas (l.map (ser t)) ++ [93]) ++ r = 91 :: (commas (l.map (ser t)) ++ 93 :: r) by simp, consume_one (by decide)]
    simp only [lift, Res.bind_ok]
    cases l with
    | nil =>
      simp only [List.map_nil, commas, List.nil_append]
      rw [consume_one (by decide)]
      exact ⟨_, rfl, [], rfl, rfl, fun i h => absurd h (by simp)⟩
    | cons x l =>
      obtain ⟨ch, u, e, h1, h2, h3⟩ := head_commas (ser_head t _ d' x hz (hl x List.mem_cons_self)) (l.map (ser t)) (93 :: r)
      rw [← List.map_cons] at e
      rw [e, consume_other _ h1 h2, ← e]
      obtain ⟨mem', e1, e2⟩ := vec_loop (des_ser hO t d') hz l x [] mem _ r hl (by simp) (fun i h => absurd h (by simp))
        (fun i e _ he => hm e (List.mem_of_getElem? he))
        (show l.length < (commas ((x :: l).map (ser t)) ++ 93 :: r).length + 1 by
          have := commas_length ((x :: l).map (ser t))
          simp only [List.length_map, List.length_cons, List.length_append] at this ⊢
          omega)
      refine ⟨_, e1, x :: l, rfl, rfl, fun i h => ?_⟩
      obtain ⟨e, a1, a2⟩ := e2 i h
      refine ⟨e, ?_, a2⟩
      rw [Cell.index, if_pos (by simpa using h), if_pos rfl, a1]
  | .map t, d => by
    intro c v r hc hf hr
    simp only [Fits] at hf
    obtain ⟨l, d', rfl, rfl, hnd, hl⟩ := hf
    simp only [Room] at hc
    obtain ⟨rfl, hz⟩ := hc
    simp only [des, ser, Holds]
    rw [show ∀ z : List Byte, 123 :: (z ++ [125]) ++ r = 123 :: (z ++ 125 :: r) by simp, consume_one (by decide)]
    simp only [lift, Res.bind_ok]
    cases l with
    | nil =>
      simp only [List.map_nil, commas, List.nil_append]
      rw [consume_one (by decide)]
      exact ⟨_, rfl, true, [], [], rfl, rfl, rfl, fun i h => absurd h (by simp)⟩
    | cons x l =>
      have hh : Head (serializeString x.1 ++ 58 :: ser t x.2) := ⟨34, _, rfl, by decide, by decide, by decide⟩
      obtain ⟨ch, u, e, h1, h2, h3⟩ := head_commas hh (l.map fun e => serializeString e.1 ++ 58 :: ser t e.2) (125 :: r)
      rw [List.map_cons, e, consume_other _ h1 h3, ← e]
      obtain ⟨es', e1, e2⟩ := map_loop (des_ser hO t d') hz l x [] [] _ r hl hnd ⟨rfl, fun i h => absurd h (by simp)⟩
        (show l.length < (commas ((x :: l).map fun e => serializeString e.1 ++ 58 :: ser t e.2) ++ 125 :: r).length + 1 by
          have := commas_length ((x :: l).map fun e => serializeString e.1 ++ 58 :: ser t e.2)
          simp only [List.length_map, List.length_cons, List.length_append] at this ⊢
          omega)
      rw [List.map_cons] at e1
      exact ⟨_, e1, true, es', x :: l, rfl, rfl, e2.1, e2.2⟩
  | .struct fs, d => by
    intro c v r hc hf hr
    simp only [Fits] at hf
    obtain ⟨l, d', rfl, rfl, hnd, hn, hl⟩ := hf
    simp only [Room] at hc
    obtain ⟨cs, rfl, hc⟩ := hc
    simp only [des, ser, Holds]
    rw [show ∀ z : List Byte, 123 :: (z ++ [125]) ++ r = 123 :: (z ++ 125 :: r) by simp, consume_one (by decide)]
    simp only [lift, Res.bind_ok]
    match fs, hnd, hn, hl, hc with
    | .nil, _, _, hl, hc =>
      simp only [FitsFields] at hl
      simp only [RoomFields] at hc
      subst hl hc
      simp only [serFields, commas, List.nil_append]
      rw [consume_one (by decide)]
      refine ⟨_, rfl, [], [], rfl, rfl, ?_⟩
      simp only [HoldsFields, and_self]
    | .cons name t rest, hnd, hn, hl, hc =>
      have hl' := hl
      simp only [FitsFields] at hl'
      obtain ⟨x, xs, rfl, _⟩ := hl'
      have hh : Head (34 :: (name ++ 34 :: 58 :: ser t x)) := ⟨34, _, rfl, by decide, by decide, by decide⟩
      obtain ⟨ch, u, e, h1, h2, h3⟩ := head_commas hh (serFields rest xs) (125 :: r)
      simp only [serFields]
      rw [e, consume_other _ h1 h3, ← e]
      obtain ⟨cs', e1, e2⟩ := fields_ser hO (.cons name t rest) d' (desField O (.cons name t rest) d')
        (fun s => (parserValue d' s).map (·.2)) [] cs (x :: xs)
        ((commas ((34 :: (name ++ 34 :: 58 :: ser t x)) :: serFields rest xs) ++ 125 :: r).length + 1) r
        (by simp [Fields.names]) hnd hn hl hc
        (by
          intro key _ cs s
          rw [List.nil_append]
          generalize desField O (.cons name t rest) d' key cs s = o
          cases o with
          | none => rfl
          | some r => cases r <;> rfl)
        (by
          have := commas_length (serFields (.cons name t rest) (x :: xs))
          simp only [serFields, List.length_append, List.length_cons] at this ⊢
          omega)
      simp only [serFields] at e1
      exact ⟨_, e1, cs', x :: xs, by simp, rfl, e2⟩
  | .opt t, d => by
    intro c v r hc hf hr
    simp only [Fits] at hf
    simp only [Room] at hc
    obtain ⟨rfl, hi, hn⟩ := hc
    simp only [des, Holds]
    rcases hf with rfl | ⟨v', rfl, hv⟩
    · simp only [ser]
      rw [show skipWs ([110, 117, 108, 108] ++ r) = 110 :: ([117, 108, 108] ++ r) from rfl]
      dsimp only
      rw [if_pos rfl, consume_head _ (by decide)]
      exact ⟨_, rfl, Or.inl ⟨rfl, trivial⟩⟩
    · simp only [ser]
      obtain ⟨ch, u, e, h1, h2, h3, h4⟩ := ser_head' t d v' hv hn
      obtain ⟨c', e1, e2⟩ := des_ser hO t d (optInit t) v' r hi hv hr
      rw [skipWs_stop (s := ser t v' ++ r) (by rw [e]; intro x hx; injection hx with hx; rw [← hx]; exact h1)]
      rw [e] at e1 ⊢
      dsimp only [List.cons_append]
      rw [if_neg h4]
      rw [List.cons_append] at e1
      rw [e1]
      exact ⟨_, rfl, Or.inr ⟨c', v', rfl, rfl, e2⟩⟩
theorem fields_ser {O : F64} (hO : O.Exact) : ∀ (fs : Fields) (d : Nat)
    (pf : List Byte → List Cell → List Byte → Option (Res (List Cell × List Byte))) (skip : List Byte → Option (List Byte))
    (pre cs : List Cell) (vs : List TVal) (n : Nat) (r : List Byte), fs.names ≠ [] → fs.names.Nodup → (∀ k ∈ fs.names, Name k) →
    FitsFields fs d vs → RoomFields fs cs →
    (∀ key ∈ fs.names, ∀ cs s, pf key (pre ++ cs) s = (desField O fs d key cs s).map fun r => r.bind fun p => .ok (pre ++ p.1, p.2)) →
    (serFields fs vs).length ≤ n →
    ∃ cs', structLoop pf skip n (pre ++ cs) (commas (serFields fs vs) ++ 125 :: r) = .ok (.struct (pre ++ cs'), r) ∧ HoldsFields fs cs' vs
  | .nil, _, _, _, _, _, _, _, _, hne, _, _, _, _, _, _ => absurd rfl hne
  | .cons name t rest, d, pf, skip, pre, cs, vs, n, r, hne, hnd, hn, hf, hc, hpf, hlen => by
    simp only [FitsFields] at hf
    obtain ⟨x, xs, rfl, hx, hxs⟩ := hf
    simp only [RoomFields] at hc
    obtain ⟨c, cs, rfl, hc, hcs⟩ := hc
    simp only [serFields, List.length_cons] at hlen
    obtain ⟨n, rfl⟩ : ∃ k, n = k + 1 := ⟨n - 1, by omega⟩
    simp only [Fields.names, List.nodup_cons] at hnd
    have hnm := hn name (by simp [Fields.names])
    have hstep : ∀ z, Stop z → ∃ c', pf name (pre ++ c :: cs) (ser t x ++ z) = some (.ok (pre ++ c' :: cs, z)) ∧ Holds t c' x := by
      intro z hz
      obtain ⟨c', e1, e2⟩ := des_ser hO t d c x z hc hx hz
      refine ⟨c', ?_, e2⟩
      rw [hpf name (by simp [Fields.names]), desField_head, e1]
      rfl
    have hstr : ∀ z : List Byte, parserString (34 :: (name ++ 34 :: 58 :: ser t x) ++ z) = some (name, 58 :: (ser t x ++ z)) := by
      intro z
      have := string_complete (a := []) ws_nil (name_chars hnm) (58 :: (ser t x ++ z))
      rw [← this]; simp
    simp only [serFields, HoldsFields]
    match rest, hxs, hcs, hnd, hn, hpf, hlen with
    | .nil, hxs, hcs, _, _, _, _ =>
      simp only [FitsFields] at hxs
      simp only [RoomFields] at hcs
      subst hxs hcs
      obtain ⟨c', e1, e2⟩ := hstep (125 :: r) (stop_cons r (by decide))
      simp only [serFields, commas, HoldsFields]
      refine ⟨[c'], ?_, c', [], x, [], rfl, rfl, e2, rfl, rfl⟩
      rw [structLoop, hstr]
      simp only [lift, Res.bind_ok]
      rw [consume_one (by decide)]
      simp only [Res.bind_ok]
      rw [e1, Option.getD_some]
      simp only [Res.bind_ok]
      rw [consume_one (by decide)]
    | .cons name2 t2 rest2, hxs, hcs, hnd, hn, hpf, hlen =>
      have hxs' := hxs
      simp only [FitsFields] at hxs'
      obtain ⟨y, ys, rfl, _⟩ := hxs'
      obtain ⟨c', e1, e2⟩ := hstep (44 :: (commas (serFields (.cons name2 t2 rest2) (y :: ys)) ++ 125 :: r)) (stop_cons _ (by decide))
      obtain ⟨cs', b1, b2⟩ := fields_ser hO (.cons name2 t2 rest2) d pf skip (pre ++ [c']) cs (y :: ys) n r (by simp [Fields.names]) hnd.2
        (fun k hk => hn k (by rw [Fields.names]; exact List.mem_cons_of_mem _ hk)) hxs hcs (by
          intro key hk cs s
          have hne : name ≠ key := by rintro rfl; exact hnd.1 hk
          have := hpf key (by rw [Fields.names]; exact List.mem_cons_of_mem _ hk) (c' :: cs) s
          rw [List.append_assoc, List.singleton_append, this, desField_tail hne, map_bind_bind]) (by omega)
      refine ⟨c' :: cs', ?_, c', cs', x, y :: ys, rfl, rfl, e2, b2⟩
      rw [commas_cons _ (by simp [serFields]), structLoop, List.append_assoc, hstr]
      simp only [lift, Res.bind_ok]
      rw [consume_one (by decide)]
      simp only [Res.bind_ok]
      rw [List.cons_append, e1, Option.getD_some]
      simp only [Res.bind_ok]
      rw [consume_other _ (by decide) (by decide), consume_one (by decide)]
      simp only [Res.bind_ok]
      rw [show pre ++ c' :: cs = (pre ++ [c']) ++ cs by simp, b1]
      simp
end

theorem deserialize_ser {O : F64} (hO : O.Exact) {t : Ty} (ht : Supported t) {v : TVal} (hv : Fits t maxDepth v) :
    ∃ c, deserialize O t (ser t v) = .ok c ∧ Holds t c v := by
  obtain ⟨c, e1, e2⟩ := des_ser hO t maxDepth (defaultOf t) v [] (supported_room t ht) hv stop_nil
  rw [List.append_nil] at e1
  refine ⟨c, ?_, e2⟩
  rw [deserialize, e1]
  rfl

end Nature.Json
