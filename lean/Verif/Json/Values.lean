import Verif.Json.Numbers
namespace Nature.Json

/-- What may come after a value inside a text. -/
def Stop (r : List Byte) : Prop := ∀ c, r.head? = some c → isSpace c = true ∨ c = 44 ∨ c = 93 ∨ c = 125

theorem stop_num {r : List Byte} (h : Stop r) : NumStop r := by
  intro c hc
  have := h c hc
  rw [isSpace_iff] at this
  rcases this with (rfl | rfl | rfl | rfl) | rfl | rfl | rfl <;> decide

theorem stop_ws {b r : List Byte} (hb : Ws b) (hr : Stop r) : Stop (b ++ r) := by
  cases b with
  | nil => exact hr
  | cons c b =>
    intro d hd
    injection hd with hd
    subst hd
    exact Or.inl (isSpace_iff.2 (hb c (by simp)))

theorem stop_cons {c : Byte} (r : List Byte) (h : c = 44 ∨ c = 93 ∨ c = 125) : Stop (c :: r) := by
  intro d hd
  injection hd with hd
  subst hd
  exact Or.inr h

theorem stop_nil : Stop [] := fun c hc => by cases hc

def Sound (pv : List Byte → Option (V × List Byte)) (P : List Byte → V → Prop) : Prop :=
  ∀ s v r, pv s = some (v, r) → ∃ a t, Ws a ∧ P t v ∧ s = a ++ (t ++ r)

def Complete (pv : List Byte → Option (V × List Byte)) (P : List Byte → V → Prop) : Prop :=
  ∀ a t v r, Ws a → P t v → Stop r → pv (a ++ (t ++ r)) = some (v, r)

def Heads (P : List Byte → V → Prop) : Prop := ∀ t v, P t v → ∃ c t', t = c :: t' ∧ isSpace c = false ∧ c ≠ 93 ∧ c ≠ 125

theorem elems_sound {pv P} (hP : Sound pv P) : ∀ n s vs r, elems pv n s = some (vs, r) → ∃ l, Elems P l vs ∧ s = l ++ 93 :: r := by
  intro n
  induction n with
  | zero => intro s vs r h; cases h
  | succ n ih =>
    intro s vs r h
    rw [elems] at h
    replace h := Option.bind_eq_some_iff.1 h
    obtain ⟨⟨v, s1⟩, h1, h⟩ := h
    obtain ⟨a, t, ha, ht, rfl⟩ := hP _ _ _ h1
    dsimp only at h
    cases h2 : consume [93] s1 with
    | some s2 =>
      rw [h2] at h
      injection h with h; injection h with e1 e2
      subst e1 e2
      obtain ⟨b, hb, rfl⟩ := consume_sound h2
      exact ⟨_, .one ha ht hb, by simp⟩
    | none =>
      rw [h2] at h
      dsimp only at h
      replace h := Option.bind_eq_some_iff.1 h
      obtain ⟨s2, h3, h⟩ := h
      obtain ⟨⟨vs2, s3⟩, h4, h5⟩ := map_some_iff.1 h
      injection h5 with e1 e2
      dsimp only at e1 e2
      subst e1 e2
      obtain ⟨b, hb, rfl⟩ := consume_sound h3
      obtain ⟨l, hl, rfl⟩ := ih _ _ _ h4
      exact ⟨_, .cons ha ht hb hl, by simp⟩

theorem elems_complete {pv P} (hP : Complete pv P) {l : List Byte} {vs : List V} (h : Elems P l vs) (r : List Byte) :
    ∀ n, l.length < n → elems pv n (l ++ 93 :: r) = some (vs, r) := by
  induction h with
  | @one a t b v ha ht hb =>
    intro n hn
    obtain ⟨n, rfl⟩ : ∃ k, n = k + 1 := ⟨n - 1, by omega⟩
    rw [show a ++ t ++ b ++ 93 :: r = a ++ (t ++ (b ++ 93 :: r)) by simp, elems,
      hP a t v _ ha ht (stop_ws hb (stop_cons r (Or.inr (Or.inl rfl))))]
    dsimp only [Option.bind_some]
    rw [show b ++ 93 :: r = b ++ ([93] ++ r) from rfl, consume_complete hb rfl r]
  | @cons a t b v l vs ha ht hb _ ih =>
    intro n hn
    simp only [List.length_append, List.length_cons] at hn
    obtain ⟨n, rfl⟩ : ∃ k, n = k + 1 := ⟨n - 1, by omega⟩
    rw [show a ++ t ++ b ++ 44 :: l ++ 93 :: r = a ++ (t ++ (b ++ 44 :: (l ++ 93 :: r))) by simp, elems,
      hP a t v _ ha ht (stop_ws hb (stop_cons _ (Or.inl rfl)))]
    dsimp only [Option.bind_some]
    rw [consume_none hb rfl (by decide)]
    dsimp only
    rw [show b ++ 44 :: (l ++ 93 :: r) = b ++ ([44] ++ (l ++ 93 :: r)) from rfl, consume_complete hb rfl _]
    dsimp only [Option.bind_some]
    rw [ih n (by omega)]
    rfl

theorem string_sound {s k r : List Byte} (h : parserString s = some (k, r)) : ∃ a kt, Ws a ∧ Chars kt k ∧ s = a ++ 34 :: (kt ++ 34 :: r) := by
  rw [parserString] at h
  obtain ⟨s1, h1, h2⟩ := Option.bind_eq_some_iff.1 h
  obtain ⟨a, ha, rfl⟩ := consume_sound h1
  obtain ⟨kt, hk, rfl⟩ := stringBody_sound _ _ _ _ h2
  exact ⟨a, kt, ha, hk, rfl⟩

theorem string_complete {a kt k : List Byte} (ha : Ws a) (hk : Chars kt k) (r : List Byte) :
    parserString (a ++ 34 :: (kt ++ 34 :: r)) = some (k, r) := by
  rw [parserString, show a ++ 34 :: (kt ++ 34 :: r) = a ++ ([34] ++ (kt ++ 34 :: r)) from rfl, consume_complete ha rfl]
  dsimp only [Option.bind_some]
  exact stringBody_complete hk r _ (by simp only [List.length_append]; omega)

theorem members_sound {pv P} (hP : Sound pv P) : ∀ n acc s m' r, members pv n acc s = some (m', r) →
    ∃ l m, Members P l m ∧ m' = m.foldl (fun acc e => insert e.1 e.2 acc) acc ∧ s = l ++ 125 :: r := by
  intro n
  induction n with
  | zero => intro acc s vs r h; cases h
  | succ n ih =>
    intro acc s m' r h
    rw [members] at h
    replace h := Option.bind_eq_some_iff.1 h
    obtain ⟨⟨k, s1⟩, h1, h⟩ := h
    obtain ⟨a, kt, ha, hk, rfl⟩ := string_sound h1
    replace h := Option.bind_eq_some_iff.1 h
    obtain ⟨s2, h2, h⟩ := h
    obtain ⟨b, hb, rfl⟩ := consume_sound h2
    replace h := Option.bind_eq_some_iff.1 h
    obtain ⟨⟨v, s3⟩, h3, h⟩ := h
    obtain ⟨c, t, hc, ht, rfl⟩ := hP _ _ _ h3
    dsimp only at h
    cases h4 : consume [125] s3 with
    | some s4 =>
      rw [h4] at h
      injection h with h; injection h with e1 e2
      subst e1 e2
      obtain ⟨d, hd, rfl⟩ := consume_sound h4
      exact ⟨_, _, .one ⟨a, kt, b, c, t, d, ha, hk, hb, hc, ht, hd, rfl⟩, rfl, by simp⟩
    | none =>
      rw [h4] at h
      dsimp only at h
      replace h := Option.bind_eq_some_iff.1 h
      obtain ⟨s4, h5, h⟩ := h
      obtain ⟨d, hd, rfl⟩ := consume_sound h5
      obtain ⟨l, m, hl, rfl, rfl⟩ := ih _ _ _ _ h
      exact ⟨_, _, .cons ⟨a, kt, b, c, t, d, ha, hk, hb, hc, ht, hd, rfl⟩ hl, rfl, by simp⟩

theorem members_complete {pv P} (hP : Complete pv P) {l : List Byte} {m : List (List Byte × V)} (h : Members P l m) (r : List Byte) :
    ∀ n acc, l.length < n → members pv n acc (l ++ 125 :: r) = some (m.foldl (fun acc e => insert e.1 e.2 acc) acc, r) := by
  induction h with
  | @one l k v hm =>
    intro n acc hn
    obtain ⟨a, kt, b, c, t, d, ha, hk, hb, hc, ht, hd, rfl⟩ := hm
    obtain ⟨n, rfl⟩ : ∃ k, n = k + 1 := ⟨n - 1, by omega⟩
    rw [show a ++ 34 :: (kt ++ 34 :: (b ++ 58 :: (c ++ t ++ d))) ++ 125 :: r =
      a ++ 34 :: (kt ++ 34 :: (b ++ ([58] ++ (c ++ (t ++ (d ++ 125 :: r)))))) by simp, members, string_complete ha hk]
    dsimp only [Option.bind_some]
    rw [consume_complete hb rfl]
    dsimp only [Option.bind_some]
    rw [hP c t v _ hc ht (stop_ws hd (stop_cons r (Or.inr (Or.inr rfl))))]
    dsimp only [Option.bind_some]
    rw [show d ++ 125 :: r = d ++ ([125] ++ r) from rfl, consume_complete hd rfl r]
    rfl
  | @cons l k v r2 m hm _ ih =>
    intro n acc hn
    obtain ⟨a, kt, b, c, t, d, ha, hk, hb, hc, ht, hd, rfl⟩ := hm
    simp only [List.length_append, List.length_cons] at hn
    obtain ⟨n, rfl⟩ : ∃ k, n = k + 1 := ⟨n - 1, by omega⟩
    rw [show a ++ 34 :: (kt ++ 34 :: (b ++ 58 :: (c ++ t ++ d))) ++ 44 :: r2 ++ 125 :: r =
      a ++ 34 :: (kt ++ 34 :: (b ++ ([58] ++ (c ++ (t ++ (d ++ 44 :: (r2 ++ 125 :: r))))))) by simp, members, string_complete ha hk]
    dsimp only [Option.bind_some]
    rw [consume_complete hb rfl]
    dsimp only [Option.bind_some]
    rw [hP c t v _ hc ht (stop_ws hd (stop_cons _ (Or.inl rfl)))]
    dsimp only [Option.bind_some]
    rw [consume_none hd rfl (by decide)]
    dsimp only
    rw [show d ++ 44 :: (r2 ++ 125 :: r) = d ++ ([44] ++ (r2 ++ 125 :: r)) from rfl, consume_complete hd rfl _]
    dsimp only [Option.bind_some]
    rw [ih n _ (by omega)]
    rfl

theorem array_sound {pv P} (hP : Sound pv P) {s : List Byte} {v : V} {r : List Byte} (h : parserArray pv s = some (v, r)) :
    ∃ a t, Ws a ∧ s = a ++ (t ++ r) ∧ ((∃ w, Ws w ∧ t = 91 :: (w ++ [93]) ∧ v = .arr []) ∨
      (∃ l vs, Elems P l vs ∧ t = 91 :: (l ++ [93]) ∧ v = .arr vs)) := by
  rw [parserArray] at h
  replace h := Option.bind_eq_some_iff.1 h
  obtain ⟨s1, h1, h⟩ := h
  obtain ⟨a, ha, rfl⟩ := consume_sound h1
  cases h2 : consume [93] s1 with
  | some s2 =>
    rw [h2] at h
    injection h with h; injection h with e1 e2
    subst e1 e2
    obtain ⟨w, hw, rfl⟩ := consume_sound h2
    exact ⟨a, _, ha, by simp, Or.inl ⟨w, hw, rfl, rfl⟩⟩
  | none =>
    rw [h2] at h
    obtain ⟨⟨vs, s2⟩, h3, h4⟩ := map_some_iff.1 h
    injection h4 with e1 e2
    subst e1 e2
    obtain ⟨l, hl, rfl⟩ := elems_sound hP _ _ _ _ h3
    exact ⟨a, _, ha, by simp, Or.inr ⟨l, vs, hl, rfl, rfl⟩⟩

theorem object_sound {pv P} (hP : Sound pv P) {s : List Byte} {v : V} {r : List Byte} (h : parserObject pv s = some (v, r)) :
    ∃ a t, Ws a ∧ s = a ++ (t ++ r) ∧ ((∃ w, Ws w ∧ t = 123 :: (w ++ [125]) ∧ v = .obj []) ∨
      (∃ l m, Members P l m ∧ t = 123 :: (l ++ [125]) ∧ v = .obj (mapOf m))) := by
  rw [parserObject] at h
  replace h := Option.bind_eq_some_iff.1 h
  obtain ⟨s1, h1, h⟩ := h
  obtain ⟨a, ha, rfl⟩ := consume_sound h1
  cases h2 : consume [125] s1 with
  | some s2 =>
    rw [h2] at h
    injection h with h; injection h with e1 e2
    subst e1 e2
    obtain ⟨w, hw, rfl⟩ := consume_sound h2
    exact ⟨a, _, ha, by simp, Or.inl ⟨w, hw, rfl, rfl⟩⟩
  | none =>
    rw [h2] at h
    obtain ⟨⟨vs, s2⟩, h3, h4⟩ := map_some_iff.1 h
    injection h4 with e1 e2
    subst e1 e2
    obtain ⟨l, m, hl, rfl, rfl⟩ := members_sound hP _ _ _ _ _ h3
    exact ⟨a, _, ha, by simp, Or.inr ⟨l, m, hl, rfl, rfl⟩⟩

theorem elems_head {P} (hP : Heads P) {l : List Byte} {vs : List V} (h : Elems P l vs) :
    ∃ a c t, Ws a ∧ l = a ++ c :: t ∧ isSpace c = false ∧ c ≠ 93 := by
  cases h with
  | @one a t b v ha ht hb =>
    obtain ⟨c, t', rfl, h1, h2, _⟩ := hP _ _ ht
    exact ⟨a, c, t' ++ b, ha, by simp, h1, h2⟩
  | @cons a t b v l vs ha ht hb _ =>
    obtain ⟨c, t', rfl, h1, h2, _⟩ := hP _ _ ht
    exact ⟨a, c, t' ++ b ++ 44 :: l, ha, by simp, h1, h2⟩

theorem members_head {P} {l : List Byte} {m} (h : Members P l m) : ∃ a t, Ws a ∧ l = a ++ 34 :: t := by
  cases h with
  | one hm =>
    obtain ⟨a, kt, b, c, t, d, ha, hk, hb, hc, ht, hd, rfl⟩ := hm
    exact ⟨a, _, ha, rfl⟩
  | cons hm _ =>
    obtain ⟨a, kt, b, c, t, d, ha, hk, hb, hc, ht, hd, rfl⟩ := hm
    exact ⟨a, _, ha, by simp; rfl⟩

theorem array_complete {pv P} (hP : Complete pv P) (hH : Heads P) {t : List Byte} {v : V}
    (h : (∃ w, Ws w ∧ t = 91 :: (w ++ [93]) ∧ v = .arr []) ∨ (∃ l vs, Elems P l vs ∧ t = 91 :: (l ++ [93]) ∧ v = .arr vs))
    (r : List Byte) : parserArray pv (t ++ r) = some (v, r) := by
  rcases h with ⟨w, hw, rfl, rfl⟩ | ⟨l, vs, hl, rfl, rfl⟩
  · rw [parserArray, show (91 : Byte) :: (w ++ [93]) ++ r = [] ++ ([91] ++ (w ++ ([93] ++ r))) by simp, consume_complete ws_nil rfl]
    dsimp only [Option.bind_some]
    rw [consume_complete hw rfl]
  · rw [parserArray, show (91 : Byte) :: (l ++ [93]) ++ r = [] ++ ([91] ++ (l ++ 93 :: r)) by simp, consume_complete ws_nil rfl]
    dsimp only [Option.bind_some]
    have hn : consume [93] (l ++ 93 :: r) = none := by
      obtain ⟨a, c, u, ha, rfl, h1, h2⟩ := elems_head hH hl
      rw [show a ++ c :: u ++ 93 :: r = a ++ c :: (u ++ 93 :: r) by simp]
      exact consume_none ha h1 h2
    rw [hn]
    dsimp only
    rw [elems_complete hP hl r _ (by simp only [List.length_append]; omega)]
    rfl

theorem object_complete {pv P} (hP : Complete pv P) {t : List Byte} {v : V}
    (h : (∃ w, Ws w ∧ t = 123 :: (w ++ [125]) ∧ v = .obj []) ∨ (∃ l m, Members P l m ∧ t = 123 :: (l ++ [125]) ∧ v = .obj (mapOf m)))
    (r : List Byte) : parserObject pv (t ++ r) = some (v, r) := by
  rcases h with ⟨w, hw, rfl, rfl⟩ | ⟨l, m, hl, rfl, rfl⟩
  · rw [parserObject, show (123 : Byte) :: (w ++ [125]) ++ r = [] ++ ([123] ++ (w ++ ([125] ++ r))) by simp, consume_complete ws_nil rfl]
    dsimp only [Option.bind_some]
    rw [consume_complete hw rfl]
  · rw [parserObject, show (123 : Byte) :: (l ++ [125]) ++ r = [] ++ ([123] ++ (l ++ 125 :: r)) by simp, consume_complete ws_nil rfl]
    dsimp only [Option.bind_some]
    have hn : consume [125] (l ++ 125 :: r) = none := by
      obtain ⟨a, u, ha, rfl⟩ := members_head hl
      rw [show a ++ 34 :: u ++ 125 :: r = a ++ 34 :: (u ++ 125 :: r) by simp]
      exact consume_none ha rfl (by decide)
    rw [hn]
    dsimp only
    rw [members_complete hP hl r _ _ (by simp only [List.length_append]; omega)]
    rfl

/-! ### The dispatch -/

theorem leaf_val {d : Nat} {t : List Byte} {v : V} (h : Leaf t v) : Val d t v := by
  cases d with
  | zero => exact h
  | succ d => exact Or.inl h

theorem ws_prefix {a s a2 x : List Byte} (ha : Ws a) (h : s = a ++ skipWs s) (h2 : skipWs s = a2 ++ x) (ha2 : Ws a2) :
    Ws (a ++ a2) ∧ s = (a ++ a2) ++ x := ⟨ws_append ha ha2, by rw [List.append_assoc, ← h2]; exact h⟩

theorem value_sound : ∀ d, Sound (parserValue d) (Val d) := by
  intro d
  induction d with
  | zero =>
    intro s v r h
    obtain ⟨a, ha, e⟩ := skipWs_split s
    rw [parserValue, valueWith] at h
    cases hs : skipWs s with
    | nil => rw [hs] at h; cases h
    | cons c t =>
      rw [hs] at h
      dsimp only at h
      rw [← hs] at h
      by_cases h1 : c = 110
      · rw [if_pos h1] at h
        obtain ⟨s1, h2, h3⟩ := map_some_iff.1 h
        injection h3 with e1 e2
        subst e1 e2
        obtain ⟨a2, ha2, e2⟩ := consume_sound h2
        obtain ⟨w1, w2⟩ := ws_prefix ha e e2 ha2
        exact ⟨_, _, w1, leaf_val .null, w2⟩
      rw [if_neg h1] at h
      by_cases h2 : c = 116 ∨ c = 102
      · rw [if_pos h2, parserBool] at h
        cases hb : consume [116, 114, 117, 101] (skipWs s) with
        | some s1 =>
          rw [hb] at h
          injection h with h; injection h with e1 e2
          subst e1 e2
          obtain ⟨a2, ha2, e2⟩ := consume_sound hb
          obtain ⟨w1, w2⟩ := ws_prefix ha e e2 ha2
          exact ⟨_, _, w1, leaf_val .true, w2⟩
        | none =>
          rw [hb] at h
          obtain ⟨s1, h2, h3⟩ := map_some_iff.1 h
          injection h3 with e1 e2
          subst e1 e2
          obtain ⟨a2, ha2, e2⟩ := consume_sound h2
          obtain ⟨w1, w2⟩ := ws_prefix ha e e2 ha2
          exact ⟨_, _, w1, leaf_val .false, w2⟩
      rw [if_neg h2] at h
      by_cases h3 : c = 34
      · rw [if_pos h3] at h
        obtain ⟨⟨x, s1⟩, h4, h5⟩ := map_some_iff.1 h
        injection h5 with e1 e2
        subst e1 e2
        obtain ⟨a2, kt, ha2, hk, e2⟩ := string_sound h4
        obtain ⟨w1, w2⟩ := ws_prefix ha e e2 ha2
        exact ⟨_, _, w1, leaf_val (.str hk), by rw [w2]; simp⟩
      rw [if_neg h3] at h
      by_cases h4 : c = 91
      · rw [if_pos h4] at h; cases h
      rw [if_neg h4] at h
      by_cases h5 : c = 123
      · rw [if_pos h5] at h; cases h
      rw [if_neg h5] at h
      obtain ⟨⟨x, s1⟩, h6, h7⟩ := map_some_iff.1 h
      injection h7 with e1 e2
      subst e1 e2
      obtain ⟨hn, a2, ha2, e2⟩ := numberToken_sound h6
      obtain ⟨w1, w2⟩ := ws_prefix ha e e2 ha2
      exact ⟨_, _, w1, leaf_val (.num hn), w2⟩
  | succ d ih =>
    intro s v r h
    obtain ⟨a, ha, e⟩ := skipWs_split s
    rw [parserValue, valueWith] at h
    cases hs : skipWs s with
    | nil => rw [hs] at h; cases h
    | cons c t =>
      rw [hs] at h
      dsimp only at h
      rw [← hs] at h
      by_cases h1 : c = 110
      · rw [if_pos h1] at h
        obtain ⟨s1, h2, h3⟩ := map_some_iff.1 h
        injection h3 with e1 e2
        subst e1 e2
        obtain ⟨a2, ha2, e2⟩ := consume_sound h2
        obtain ⟨w1, w2⟩ := ws_prefix ha e e2 ha2
        exact ⟨_, _, w1, leaf_val .null, w2⟩
      rw [if_neg h1] at h
      by_cases h2 : c = 116 ∨ c = 102
      · rw [if_pos h2, parserBool] at h
        cases hb : consume [116, 114, 117, 101] (skipWs s) with
        | some s1 =>
          rw [hb] at h
          injection h with h; injection h with e1 e2
          subst e1 e2
          obtain ⟨a2, ha2, e2⟩ := consume_sound hb
          obtain ⟨w1, w2⟩ := ws_prefix ha e e2 ha2
          exact ⟨_, _, w1, leaf_val .true, w2⟩
        | none =>
          rw [hb] at h
          obtain ⟨s1, h2, h3⟩ := map_some_iff.1 h
          injection h3 with e1 e2
          subst e1 e2
          obtain ⟨a2, ha2, e2⟩ := consume_sound h2
          obtain ⟨w1, w2⟩ := ws_prefix ha e e2 ha2
          exact ⟨_, _, w1, leaf_val .false, w2⟩
      rw [if_neg h2] at h
      by_cases h3 : c = 34
      · rw [if_pos h3] at h
        obtain ⟨⟨x, s1⟩, h4, h5⟩ := map_some_iff.1 h
        injection h5 with e1 e2
        subst e1 e2
        obtain ⟨a2, kt, ha2, hk, e2⟩ := string_sound h4
        obtain ⟨w1, w2⟩ := ws_prefix ha e e2 ha2
        exact ⟨_, _, w1, leaf_val (.str hk), by rw [w2]; simp⟩
      rw [if_neg h3] at h
      by_cases h4 : c = 91
      · rw [if_pos h4] at h
        obtain ⟨a2, u, ha2, e2, hv⟩ := array_sound ih h
        obtain ⟨w1, w2⟩ := ws_prefix ha e e2 ha2
        refine ⟨_, u, w1, ?_, w2⟩
        rcases hv with hv | hv
        · exact Or.inr (Or.inl hv)
        · exact Or.inr (Or.inr (Or.inl hv))
      rw [if_neg h4] at h
      by_cases h5 : c = 123
      · rw [if_pos h5] at h
        obtain ⟨a2, u, ha2, e2, hv⟩ := object_sound ih h
        obtain ⟨w1, w2⟩ := ws_prefix ha e e2 ha2
        refine ⟨_, u, w1, ?_, w2⟩
        rcases hv with hv | hv
        · exact Or.inr (Or.inr (Or.inr (Or.inl hv)))
        · exact Or.inr (Or.inr (Or.inr (Or.inr hv)))
      rw [if_neg h5] at h
      obtain ⟨⟨x, s1⟩, h6, h7⟩ := map_some_iff.1 h
      injection h7 with e1 e2
      subst e1 e2
      obtain ⟨hn, a2, ha2, e2⟩ := numberToken_sound h6
      obtain ⟨w1, w2⟩ := ws_prefix ha e e2 ha2
      exact ⟨_, _, w1, leaf_val (.num hn), w2⟩

/-- The first byte of a leaf. -/
theorem leaf_head {t : List Byte} {v : V} (h : Leaf t v) : ∃ c t', t = c :: t' ∧
    (c = 110 ∨ c = 116 ∨ c = 102 ∨ c = 34 ∨ c = 45 ∨ (48 ≤ c ∧ c ≤ 57)) := by
  cases h with
  | null => exact ⟨_, _, rfl, Or.inl rfl⟩
  | true => exact ⟨_, _, rfl, Or.inr (Or.inl rfl)⟩
  | false => exact ⟨_, _, rfl, Or.inr (Or.inr (Or.inl rfl))⟩
  | num hn =>
    obtain ⟨c, t', e, hc⟩ := num_head hn
    exact ⟨c, t', e, Or.inr (Or.inr (Or.inr (Or.inr hc)))⟩
  | str _ => exact ⟨_, _, rfl, Or.inr (Or.inr (Or.inr (Or.inl rfl)))⟩

theorem val_head (d : Nat) : Heads (Val d) := by
  intro t v h
  have leaf : Leaf t v → ∃ c t', t = c :: t' ∧ isSpace c = false ∧ c ≠ 93 ∧ c ≠ 125 := by
    intro hl
    obtain ⟨c, t', e, hc⟩ := leaf_head hl
    refine ⟨c, t', e, ?_⟩
    rcases hc with rfl | rfl | rfl | rfl | hc
    · decide
    · decide
    · decide
    · decide
    · refine ⟨digit_notSpace hc, ?_, ?_⟩
      · rintro rfl; rcases hc with hc | hc
        · exact absurd hc (by decide)
        · exact absurd hc.2 (by decide)
      · rintro rfl; rcases hc with hc | hc
        · exact absurd hc (by decide)
        · exact absurd hc.2 (by decide)
  cases d with
  | zero => exact leaf h
  | succ d =>
    rcases h with h | ⟨w, _, rfl, _⟩ | ⟨l, vs, _, rfl, _⟩ | ⟨w, _, rfl, _⟩ | ⟨l, m, _, rfl, _⟩
    · exact leaf h
    · exact ⟨_, _, rfl, by decide, by decide, by decide⟩
    · exact ⟨_, _, rfl, by decide, by decide, by decide⟩
    · exact ⟨_, _, rfl, by decide, by decide, by decide⟩
    · exact ⟨_, _, rfl, by decide, by decide, by decide⟩

theorem parserValue_eq (d : Nat) (s : List Byte) : parserValue d s = valueWith (match d with
    | 0 => none
    | d + 1 => some (parserValue d)) s := by cases d <;> rfl

theorem leaf_complete (d : Nat) {a t : List Byte} {v : V} {r : List Byte} (ha : Ws a) (h : Leaf t v) (hr : Stop r) :
    parserValue d (a ++ (t ++ r)) = some (v, r) := by
  obtain ⟨c, t', e, hsp, _⟩ := val_head d t v (leaf_val h)
  have hw : skipWs (a ++ (t ++ r)) = t ++ r := by
    rw [skipWs_ws ha, skipWs_stop]
    intro x hx
    rw [e] at hx
    injection hx with hx
    rw [← hx]; exact hsp
  rw [parserValue_eq, valueWith.eq_def, hw]
  cases h with
  | null =>
    show (consume [110, 117, 108, 108] ([] ++ ([110, 117, 108, 108] ++ r))).map _ = _
    rw [consume_complete ws_nil rfl]; rfl
  | true =>
    show parserBool ([] ++ ([116, 114, 117, 101] ++ r)) = _
    rw [parserBool, consume_complete ws_nil rfl]
  | false =>
    show parserBool ([] ++ ([102, 97, 108, 115, 101] ++ r)) = _
    rw [parserBool, show consume [116, 114, 117, 101] ([] ++ ([102, 97, 108, 115, 101] ++ r)) = none from rfl]
    dsimp only
    rw [consume_complete ws_nil rfl]; rfl
  | num hn =>
    obtain ⟨c, u, e, hc⟩ := num_head hn
    have htok := numberToken_complete hn (stop_num hr)
    have n1 : c ≠ 110 := by rintro rfl; rcases hc with hc | hc; exact absurd hc (by decide); exact absurd hc.2 (by decide)
    have n2 : ¬ (c = 116 ∨ c = 102) := by
      rintro (rfl | rfl)
      · rcases hc with hc | hc; exact absurd hc (by decide); exact absurd hc.2 (by decide)
      · rcases hc with hc | hc; exact absurd hc (by decide); exact absurd hc.2 (by decide)
    have n3 : c ≠ 34 := by rintro rfl; rcases hc with hc | hc; exact absurd hc (by decide); exact absurd hc.1 (by decide)
    have n4 : c ≠ 91 := by rintro rfl; rcases hc with hc | hc; exact absurd hc (by decide); exact absurd hc.2 (by decide)
    have n5 : c ≠ 123 := by rintro rfl; rcases hc with hc | hc; exact absurd hc (by decide); exact absurd hc.2 (by decide)
    rw [e] at htok ⊢
    rw [List.cons_append] at htok ⊢
    dsimp only
    rw [if_neg n1, if_neg n2, if_neg n3, if_neg n4, if_neg n5, htok]
    rfl
  | @str l s hc =>
    have := string_complete (a := []) ws_nil hc r
    show (parserString (34 :: (l ++ [34]) ++ r)).map _ = _
    rw [show (34 : Byte) :: (l ++ [34]) ++ r = [] ++ 34 :: (l ++ 34 :: r) by simp, this]
    rfl

theorem value_complete : ∀ d, Complete (parserValue d) (Val d) := by
  intro d
  induction d with
  | zero => intro a t v r ha h hr; exact leaf_complete 0 ha h hr
  | succ d ih =>
    intro a t v r ha h hr
    have arr : ((∃ w, Ws w ∧ t = 91 :: (w ++ [93]) ∧ v = .arr []) ∨ (∃ l vs, Elems (Val d) l vs ∧ t = 91 :: (l ++ [93]) ∧ v = .arr vs)) →
        parserValue (d + 1) (a ++ (t ++ r)) = some (v, r) := by
      intro h
      have hp := array_complete ih (val_head d) h r
      obtain ⟨u, rfl⟩ : ∃ u, t = 91 :: u := by
        rcases h with ⟨w, _, rfl, _⟩ | ⟨l, vs, _, rfl, _⟩ <;> exact ⟨_, rfl⟩
      have hw : skipWs (a ++ (91 :: u ++ r)) = 91 :: (u ++ r) := by
        rw [skipWs_ws ha]; rfl
      rw [parserValue, valueWith, hw]
      exact hp
    have obj : ((∃ w, Ws w ∧ t = 123 :: (w ++ [125]) ∧ v = .obj []) ∨
        (∃ l m, Members (Val d) l m ∧ t = 123 :: (l ++ [125]) ∧ v = .obj (mapOf m))) →
        parserValue (d + 1) (a ++ (t ++ r)) = some (v, r) := by
      intro h
      have hp := object_complete ih h r
      obtain ⟨u, rfl⟩ : ∃ u, t = 123 :: u := by
        rcases h with ⟨w, _, rfl, _⟩ | ⟨l, vs, _, rfl, _⟩ <;> exact ⟨_, rfl⟩
      have hw : skipWs (a ++ (123 :: u ++ r)) = 123 :: (u ++ r) := by
        rw [skipWs_ws ha]; rfl
      rw [parserValue, valueWith, hw]
      exact hp
    rcases h with h | h | h | h | h
    · exact leaf_complete (d + 1) ha h hr
    · exact arr (Or.inl h)
    · exact arr (Or.inr h)
    · exact obj (Or.inl h)
    · exact obj (Or.inr h)

theorem parse_iff (d : Nat) (s : List Byte) (v : V) : parseWithDepth d s = some v ↔ Text d s v := by
  constructor
  · intro h
    rw [parseWithDepth] at h
    obtain ⟨⟨v2, s1⟩, h1, h2⟩ := Option.bind_eq_some_iff.1 h
    dsimp only at h2
    by_cases hs : skipWs s1 = []
    · rw [if_pos hs] at h2
      injection h2 with h2
      subst h2
      obtain ⟨a, t, ha, ht, rfl⟩ := value_sound d _ _ _ h1
      exact ⟨a, t, s1, ha, ht, ws_of_skip hs, by simp⟩
    · rw [if_neg hs] at h2; cases h2
  · rintro ⟨a, t, b, ha, ht, hb, rfl⟩
    have hst : Stop b := by
      have := stop_ws hb stop_nil
      rwa [List.append_nil] at this
    rw [parseWithDepth, List.append_assoc, value_complete d a t v b ha ht hst]
    dsimp only [Option.bind_some]
    rw [if_pos (skipWs_all hb)]

end Nature.Json
