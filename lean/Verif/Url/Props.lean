import Verif.Url.Lemmas
/-! C32 (percent-encoding), C46 (parse), C47 (query) and C48 (host and port). -/
namespace Nature.Url
open Nature Nature.Strings

/-- **C32.** Decoding the encoding of any byte string gives the string back. -/
theorem C32_round_trip (s : Str) : decode (encode s) = s := decode_encode s

/-- **C32.** The encoded text contains only unreserved characters, `+` and `%`,
and every `%` is followed by two hex digits. -/
theorem C32_alphabet (s : Str) : (∀ c ∈ encode s, Allowed c) ∧ WellEscaped (encode s) :=
  ⟨encode_allowed s, encode_wellEscaped s⟩

/-- "a b/%" -/
example : encode [97#8, 32#8, 98#8, 47#8, 37#8] =
    [97#8, 43#8, 98#8, 37#8, 50#8, 70#8, 37#8, 50#8, 53#8] := by decide
/-- A byte that is not an escape is left alone: "%zz". -/
example : decode [37#8, 122#8, 122#8] = [37#8, 122#8, 122#8] := by decide +kernel

theorem parse_spec {url : Str} {u : U} (h : parse url = .ok u) :
    ∃ (path : Str) (q fr : Option Str), Shape url u.scheme u.authority path q fr ∧
      u.path = (if path = [] then [47#8] else path) ∧ u.rawQuery = q.getD [] ∧ u.fragment = fr.getD [] ∧
      HostPort u.authority u.hostname u.port := by
  unfold parse at h
  split at h
  · cases h
  · rcases loop_scheme url (url.length + 1) 0 [] url (by omega) (by omega) rfl rfl (by simp) with
      ⟨e, _⟩ | ⟨s, a, p, q, fr, hn, port, hs, hp, e⟩
    · rw [e] at h; cases h
    · rw [e] at h
      simp only [Res.bind_ok, Res.ok.injEq] at h
      subst h
      refine ⟨p, q, fr, ?_, ?_, ?_, ?_, ?_⟩ <;> split <;> rename_i hpl
      · exact hs
      · exact hs
      · rw [if_pos (by simpa using hpl)]
      · rw [if_neg (by simpa using hpl)]
      · cases q <;> rfl
      · cases q <;> rfl
      · cases fr <;> rfl
      · cases fr <;> rfl
      · exact hp
      · exact hp

/-- **C46.** A URL that parses is exactly its components put back together:
`scheme://authority` followed by the path, `?query` and `#fragment` that are
present, each free of its terminators.  An absent path is reported as `/`. -/
theorem C46_parse {url : Str} {u : U} (h : parse url = .ok u) :
    ∃ (path : Str) (q fr : Option Str), Shape url u.scheme u.authority path q fr ∧
      u.path = (if path = [] then [47#8] else path) ∧ u.rawQuery = q.getD [] ∧ u.fragment = fr.getD [] := by
  obtain ⟨path, q, fr, h1, h2, h3, h4, _⟩ := parse_spec h
  exact ⟨path, q, fr, h1, h2, h3, h4⟩

/-- **C48 (partial).** Host and port are the authority split at its last colon; the
port is 0 when there is none or it is not a 32-bit number.  Missing: bracketed IPv6
hosts without a port (counterexample below). -/
theorem C48_host_port_partial {url : Str} {u : U} (h : parse url = .ok u) :
    HostPort u.authority u.hostname u.port := by
  obtain ⟨path, q, fr, _, _, _, _, hp⟩ := parse_spec h
  exact hp

/-- **C46.** `parse` returns exactly on the URLs whose first colon is followed by
`//`, throws on all others, and never does anything else. -/
theorem C46_parse_accepts (url : Str) :
    (∃ u, parse url = .ok u ∧ ∃ s t, url = s ++ [58#8, 47#8, 47#8] ++ t ∧ 58#8 ∉ s) ∨
    (parse url = .throws ∧ ¬ ∃ s t, url = s ++ [58#8, 47#8, 47#8] ++ t ∧ 58#8 ∉ s) := by
  unfold parse
  split
  · rename_i h
    refine .inr ⟨rfl, ?_⟩
    rintro ⟨s, t, e, _⟩
    rw [e] at h; simp at h
  · rcases loop_scheme url (url.length + 1) 0 [] url (by omega) (by omega) rfl rfl (by simp) with
      ⟨e, hn⟩ | ⟨s, a, p, q, fr, hn, port, hs, hp, e⟩
    · rw [e]; exact .inr ⟨rfl, hn⟩
    · rw [e]
      have := hs.eq
      simp only [List.append_assoc] at this
      exact .inl ⟨_, rfl, s, _, by rw [List.append_assoc]; exact this, hs.scheme_free⟩

/-- "http://h:80/p?q#f" -/
example : parse [104#8, 116#8, 116#8, 112#8, 58#8, 47#8, 47#8, 104#8, 58#8, 56#8, 48#8, 47#8, 112#8, 63#8, 113#8, 35#8, 102#8] =
    .ok { scheme := [104#8, 116#8, 116#8, 112#8], authority := [104#8, 58#8, 56#8, 48#8], hostname := [104#8], port := 80,
          path := [47#8, 112#8], rawQuery := [113#8], fragment := [102#8] } := by decide +kernel
/-- "http:/h" is rejected. -/
example : parse [104#8, 116#8, 116#8, 112#8, 58#8, 47#8, 104#8] = .throws := by decide +kernel

/-- **C48 counterexample**: an IPv6 host in brackets without a port is cut at its
last colon: "http://[::1]" has the hostname "[:". -/
theorem C48_ipv6_counterexample : ∃ (url : Str) (u : U), parse url = .ok u ∧
    u.authority = [91#8, 58#8, 58#8, 49#8, 93#8] ∧ u.hostname = [91#8, 58#8] :=
  ⟨[104#8, 58#8, 47#8, 47#8, 91#8, 58#8, 58#8, 49#8, 93#8],
    { scheme := [104#8], authority := [91#8, 58#8, 58#8, 49#8, 93#8], hostname := [91#8, 58#8], path := [47#8] },
    by decide +kernel, rfl, rfl⟩

/-- **C47 (partial).** For any list of key/value pairs of arbitrary bytes, the query
string built by encoding both sides of each pair gives every key its values back, in
order, and `get` gives the first one.
Missing: raw values that contain `=` (counterexample below). -/
theorem C47_query_partial (kvs : List (Str × Str)) :
    ∃ q, query (buildQuery kvs) = .ok q ∧ (∀ k, q.values k = valuesOf kvs k) ∧
      (∀ k, q.get k = (valuesOf kvs k).headD []) := by
  have key : ∃ q, query (buildQuery kvs) = .ok q ∧ (∀ k, q.values k = valuesOf kvs k) := by
    unfold query
    by_cases h : kvs = []
    · subst h
      exact ⟨[], rfl, fun k => rfl⟩
    · have hlast : (kvs.map fun e => encode e.1 ++ [61#8] ++ encode e.2).getLast? ≠ some [] := by
        intro hl
        have := List.mem_of_getLast? hl
        obtain ⟨e, _, he⟩ := List.mem_map.1 this
        simp at he
      have hfree : ∀ p ∈ (kvs.map fun e => encode e.1 ++ [61#8] ++ encode e.2), 38#8 ∉ p := by
        intro p hp
        obtain ⟨e, _, rfl⟩ := List.mem_map.1 hp
        simp only [List.mem_append, List.mem_singleton, not_or]
        exact ⟨⟨(encode_free _).2, by decide⟩, (encode_free _).2⟩
      have hne : (kvs.map fun e => encode e.1 ++ [61#8] ++ encode e.2) ≠ [] := by simpa using h
      have hb : buildQuery kvs ≠ [] := glue_ne_nil hne hlast
      rw [if_neg (by simpa using hb)]
      rw [show split (buildQuery kvs) [38#8] = _ from split_glue 38#8 _ hfree hne hlast]
      simp only [Res.bind_ok]
      rw [queryLoop_build]
      exact ⟨_, rfl, fun k => by rw [foldl_values]; rfl⟩
  obtain ⟨q, e, hv⟩ := key
  refine ⟨q, e, hv, fun k => ?_⟩
  rw [← hv k]
  unfold Query.get Query.values
  cases q.find? (fun e => decide (e.1 = k)) <;> rfl

/-- Keys and values with separators and bytes above 127: `{"a&":"=","a&":"ÿ","":""}`. -/
example : ∃ q, query (buildQuery [([97#8, 38#8], [61#8]), ([97#8, 38#8], [255#8]), ([], [])]) = .ok q ∧
    q.values [97#8, 38#8] = [[61#8], [255#8]] ∧ q.values [] = [[]] := ⟨_, rfl, by decide +kernel, by decide +kernel⟩

/-- **C47 counterexample**: the value of `a=b=c` is lost; the key is present with an
empty value. -/
theorem C47_equals_counterexample : ∃ (raw : Str) (q : Query),
    raw = [97#8, 61#8, 98#8, 61#8, 99#8] ∧ query raw = .ok q ∧ q.values [97#8] = [[]] :=
  ⟨_, _, rfl, rfl, by decide +kernel⟩

end Nature.Url
