import Verif.Json.Reader
import Verif.Fmt.Spec
/-
C55 (json.parse accepts exactly JSON), C56 (serialize and parse), C57 (the incremental reader).
-/
namespace Nature.Json
open Fmt (asciiOf)

/-! ### C55 -/

/-- C55: `json.parse` gives `v` for a byte string exactly when the string is a JSON text, as in RFC 8259, for `v` with at
most 256 levels of arrays and objects; for everything else it throws. -/
theorem C55_parse (s : List Byte) (v : V) : parse s = some v ↔ Text 256 s v := parse_iff 256 s v

/-- C55: a text stands for one value only. -/
theorem C55_unique {s : List Byte} {v w : V} (h : Text 256 s v) (h' : Text 256 s w) : v = w := by
  rw [← C55_parse] at h h'
  rw [h] at h'
  exact Option.some.inj h'

/-- C55: the thrown case. -/
theorem C55_throws (s : List Byte) : parse s = none ↔ ∀ v, ¬ Text 256 s v := by
  constructor
  · intro h v hv
    rw [(C55_parse s v).2 hv] at h
    cases h
  · intro h
    cases e : parse s with
    | none => rfl
    | some v => exact absurd ((C55_parse s v).1 e) (h v)

example : Text 256 (asciiOf " [1, -2.5e+3 , \"a\\u00e9\\n\", {}]\n")
    (.arr [.num (asciiOf "1"), .num (asciiOf "-2.5e+3"), .str [97, 0xC3, 0xA9, 10], .obj []]) :=
  (C55_parse _ _).1 (by rfl)

example : Text 256 (asciiOf "{\"a\":1,\"b\":2,\"a\":null}") (.obj [([97], .null), ([98], .num [50])]) :=
  (C55_parse _ _).1 (by rfl)

example : parse (asciiOf "[1,]") = none ∧ parse (asciiOf "01") = none ∧ parse (asciiOf "{\"a\" 1}") = none ∧
    parse (asciiOf "[1] 2") = none ∧ parse (asciiOf "+1") = none ∧ parse (asciiOf "\"\\x\"") = none ∧
    parse (asciiOf "\"a") = none ∧ parse (asciiOf "tru") = none ∧ parse (asciiOf "") = none ∧ parse (asciiOf "1.") = none := by
  refine ⟨?_, ?_, ?_, ?_, ?_, ?_, ?_, ?_, ?_, ?_⟩ <;> rfl

/-- The limit of the depth is met at 257 levels. -/
example : (parse (List.replicate 257 91 ++ List.replicate 257 93)).isNone = true ∧
    (parse (List.replicate 256 91 ++ List.replicate 256 93)).isSome = true := by decide +kernel

/-! ### C56 -/

/-- C56: what `json.serialize` writes for a value is read back as that value. -/
theorem C56_roundtrip {v : V} (h : Wf 256 v) : parse (serialize v) = some v :=
  (C55_parse _ _).2 ⟨[], serialize v, [], ws_nil, serialize_val 256 v h, ws_nil, by simp⟩

/-- C56: in particular for every value `json.parse` has given, whatever the text was. -/
theorem C56_reparse {s : List Byte} {v : V} (h : parse s = some v) : parse (serialize v) = some v := by
  obtain ⟨a, t, b, _, ht, _, _⟩ := (C55_parse s v).1 h
  exact C56_roundtrip (val_wf 256 t v ht)

/-- C56: a string of any bytes gives a JSON text, for the string with U+FFFD in the place of what is not UTF-8. -/
theorem C56_string (s : List Byte) : ∃ o, Clean s o ∧ parse (serialize (.str s)) = some (.str o) := by
  obtain ⟨o, ho⟩ := clean_exists s.length s (Nat.le_refl _)
  exact ⟨o, ho, (C55_parse _ _).2 ⟨[], _, [], ws_nil, leaf_val (str_leaf ho), ws_nil, by simp⟩⟩

/-- C56: UTF-8 is not changed by that. -/
theorem C56_utf8 {s : List Byte} (h : ValidUtf8 s) : parse (serialize (.str s)) = some (.str s) :=
  (C55_parse _ _).2 ⟨[], _, [], ws_nil, leaf_val (str_leaf (clean_of_valid h)), ws_nil, by simp⟩

example : Wf 256 (.obj [([97], .arr [.num (asciiOf "1"), .null]), ([0xC3, 0xA9], .str [1, 34, 0xE4, 0xBD, 0xA0])]) := by
  obtain ⟨_, t, _, _, ht, _, _⟩ := (C55_parse (asciiOf "{\"a\":[1,null],\"\\u00e9\":\"\\u0001\\\"\\u4f60\"}")
    (.obj [([97], .arr [.num (asciiOf "1"), .null]), ([0xC3, 0xA9], .str [1, 34, 0xE4, 0xBD, 0xA0])])).1 (by rfl)
  exact val_wf 256 t _ ht

example : serialize (.str [97, 0xFF, 1]) = asciiOf "\"a\\ufffd\\u0001\"" := by
  rw [serialize]; decide +kernel

/-! ### C57 -/

/-- C57: how the bytes are cut into chunks makes no difference. -/
theorem C57_chunks (chunks : List (List Byte)) (r : Reader) : chunks.foldlM Reader.write r = r.write chunks.flatten := by
  induction chunks generalizing r with
  | nil => rfl
  | cons c cs ih =>
    rw [List.flatten_cons, write_append, List.foldlM_cons]
    cases r.write c with
    | none => rfl
    | some q => exact ih q

/-- C57: for a JSON text `a t b` with whitespace `a` and `b`, no prefix makes the reader throw, and it reports a complete
value exactly from the byte on that ends the value: the last byte of a string, an array or an object, or the byte after
a number or a literal name. -/
theorem C57_complete {a t b : List Byte} {v : V} (ha : Ws a) (ht : Val 256 t v) (hb : Ws b) {p x : List Byte}
    (hp : a ++ t ++ b = p ++ x) :
    ∃ r, Reader.write {} p = some r ∧
      (r.complete = true ↔ a.length + t.length + (if Closed t then 0 else 1) ≤ p.length) := by
  rcases List.append_eq_append_iff.1 hp with ⟨b', rfl, rfl⟩ | ⟨c, hc, rfl⟩
  · have hb' : Ws b' := fun c hc => hb c (List.mem_append_left _ hc)
    obtain ⟨q, h1, h2⟩ := reader_text ha ht hb'
    refine ⟨q, h1, h2.trans ?_⟩
    rw [List.length_append, List.length_append]
    by_cases hcl : Closed t
    · simp [hcl]
    · rw [if_neg hcl]
      constructor
      · rintro (h | h)
        · exact absurd h hcl
        · have := List.length_pos_iff.2 h; omega
      · intro h; right; rintro rfl; simp at h; omega
  · by_cases hcn : c = []
    · subst hcn
      rw [List.append_nil] at hc
      obtain ⟨q, h1, h2⟩ := reader_text ha ht ws_nil
      rw [List.append_nil] at h1
      rw [← hc]
      refine ⟨q, h1, h2.trans ?_⟩
      rw [List.length_append]
      by_cases hcl : Closed t
      · simp [hcl]
      · rw [if_neg hcl]
        simp only [hcl, false_or, ne_eq, not_true_eq_false, false_iff]
        omega
    · obtain ⟨q, h1, h2⟩ := reader_early ha ht hc hcn
      refine ⟨q, h1, ?_⟩
      have := congrArg List.length hc
      have := List.length_pos_iff.2 hcn
      simp only [List.length_append] at *
      rw [h2]
      constructor
      · intro h; cases h
      · intro h; split at h <;> omega

/-- C57: once it reports a complete value, `value` gives the value of the text. -/
theorem C57_value {a t b : List Byte} {v : V} (ha : Ws a) (ht : Val 256 t v) (hb : Ws b) {r : Reader}
    (h : Reader.write {} (a ++ t ++ b) = some r) (hc : r.complete = true) : r.value = some v := by
  rw [Reader.value, if_pos hc, write_data _ _ _ h]
  exact (C55_parse _ _).2 ⟨a, t, b, ha, ht, hb, rfl⟩

/-- C57: it throws only when no continuation of what was read is a JSON text. -/
theorem C57_throws {p : List Byte} (h : Reader.write {} p = none) (x : List Byte) (v : V) : ¬ Text 256 (p ++ x) v := by
  rintro ⟨a, t, b, ha, ht, hb, he⟩
  obtain ⟨r, hr, _⟩ := C57_complete ha ht hb he.symm
  rw [h] at hr
  cases hr

/-- C57: whatever the bytes, a value given is the value of all the bytes written, as `json.parse` gives it. -/
theorem C57_sound {s : List Byte} {r : Reader} (h : Reader.write {} s = some r) {v : V} (hv : r.value = some v) : Text 256 s v := by
  rw [Reader.value] at hv
  split at hv
  · rw [write_data _ _ _ h] at hv
    exact (C55_parse _ _).1 hv
  · cases hv

example : ((Reader.write {} (asciiOf " [1,")).bind fun r => (r.write (asciiOf "\"]\"")).bind fun r =>
    some (r.complete, (r.write (asciiOf "]")).map fun r => r.complete)) = some (false, some true) := by rfl

example : (Reader.write {} (asciiOf "12")).map (·.complete) = some false ∧
    (Reader.write {} (asciiOf "12 ")).map (·.complete) = some true ∧ Reader.write {} (asciiOf "[1]]") = none ∧
    Reader.write {} (asciiOf "[1}") = none := by refine ⟨?_, ?_, ?_, ?_⟩ <;> rfl

/-- A number or literal name at the very end of the input is never reported complete: there is no way to tell the reader
that the input is over. -/
theorem C57_open_end : Text 256 (asciiOf "12") (.num (asciiOf "12")) ∧
    ∃ r, Reader.write {} (asciiOf "12") = some r ∧ r.complete = false ∧ r.value = none :=
  ⟨(C55_parse _ _).1 (by rfl), _, rfl, rfl, rfl⟩

end Nature.Json
