import Verif.Archive.Bsd
import Verif.Archive.Inside
import Verif.Archive.Thin

/-!
# C107: linking against a static library gives the linker exactly the files put into it

`Spec.archive` writes an archive as GNU `ar` does, `Spec.bsdArchive` as BSD does.  The model
`parseArchive bytes thin` gives the names and contents that the linker goes on with.
-/

namespace Nature.Archive

open Spec (dec fill record ascii)

/-- The linker finds, in an archive written by GNU `ar`, all members with their full names and
contents, in their order, and nothing else. -/
theorem C107_gnu_partial (index : Option (List Nat)) (info : List Nat) (extra : Nat)
    (ms : List Spec.Member) (hf : ∀ m ∈ ms, Spec.Fits m) (hi : info.length = 32)
    (hx : ∀ c, index = some c → c.length < 10 ^ 10) (ht : (Spec.table ms).length < 10 ^ 10) :
    parseArchive (Spec.archive index info extra ms) false =
      .ok (ms.map fun m => (m.name, m.content)) := by
  have h8 : (ascii "!<arch>\n").length = 8 := by decide
  -- the part after the index
  have key : ∀ (pre : List Nat) (fuel : Nat), ∀ bytes : List Nat,
      bytes = pre ++ ((if Spec.table ms = [] then [] else record [47, 47] (Spec.table ms) info extra) ++
        Spec.members 0 ms) → bytes.length - pre.length < fuel →
      ∃ t, findTable bytes false fuel pre.length none = .ok t ∧ t.getD [] = Spec.table ms ∧
        walk bytes false (Spec.table ms) fuel pre.length =
          .ok (ms.map fun m => (m.name, m.content)) := by
    intro pre fuel bytes hb hfuel
    by_cases he : Spec.table ms = []
    · rw [if_pos he, List.nil_append] at hb
      refine ⟨none, findTable_members bytes pre 0 ms hf hb (by simpa using ht) fuel hfuel none,
        by rw [he]; rfl, ?_⟩
      exact walk_members bytes pre [] _ ms hf hb rfl (Or.inl rfl) (by simpa using ht) fuel hfuel
    · rw [if_neg he, ← List.append_assoc] at hb
      obtain ⟨n, rfl⟩ : ∃ n, fuel = n + 1 := ⟨fuel - 1, by omega⟩
      have hl := record_length [47, 47] (Spec.table ms) info extra (by simp) hi ht
      have hlen := congrArg List.length hb
      simp only [List.length_append] at hlen
      have hfu : bytes.length - (pre ++ record [47, 47] (Spec.table ms) info extra).length < n := by
        rw [List.length_append]; omega
      refine ⟨some (Spec.table ms), ?_, rfl, ?_⟩
      · have hr := recordAt_record pre (Spec.members 0 ms) [47, 47] (Spec.table ms) info extra false
          (Or.inl rfl) (by simp) hi ht
        have hs := slice_content pre (Spec.members 0 ms) [47, 47] (Spec.table ms) info extra
          (by simp) hi ht
        rw [← hb] at hr hs
        rw [findTable, if_pos (by omega), hr]
        simp only [kind_table, Option.isSome_none, Bool.false_eq_true, if_false, if_true, hs]
        rw [← List.length_append]
        exact findTable_members bytes _ 0 ms hf hb (by simpa using ht) n hfu _
      · have hw := walk_skip pre (Spec.members 0 ms) [47, 47] (Spec.table ms) info extra n
          (Spec.table ms) false (by simp) hi ht (by rw [kind_table]; simp)
        rw [← hb] at hw
        rw [hw]
        exact walk_members bytes _ [] _ ms hf hb rfl (Or.inl rfl) (by simpa using ht) n hfu
  unfold parseArchive
  generalize hb : Spec.archive index info extra ms = bytes
  rcases index with _ | c
  · have hb' : bytes = ascii "!<arch>\n" ++ ((if Spec.table ms = [] then [] else
        record [47, 47] (Spec.table ms) info extra) ++ Spec.members 0 ms) := by
      rw [← hb]; simp [Spec.archive]
    obtain ⟨t, k1, k2, k3⟩ := key _ (bytes.length + 1) bytes hb' (by omega)
    rw [h8] at k1 k3
    rw [k1]
    simp only [k2, k3]
  · have hc := hx c rfl
    have hb' : bytes = (ascii "!<arch>\n" ++ record [47] c info extra) ++
        ((if Spec.table ms = [] then [] else record [47, 47] (Spec.table ms) info extra) ++
          Spec.members 0 ms) := by
      rw [← hb]; simp [Spec.archive]
    have hl := record_length [47] c info extra (by simp) hi hc
    have hlen := congrArg List.length hb'
    simp only [List.length_append] at hlen
    obtain ⟨t, k1, k2, k3⟩ := key _ bytes.length bytes hb' (by simp only [List.length_append]; omega)
    have f1 := findTable_step (ascii "!<arch>\n") ((if Spec.table ms = [] then [] else
        record [47, 47] (Spec.table ms) info extra) ++ Spec.members 0 ms) [47] c info extra
      bytes.length none false (Or.inl rfl) (by simp) hi hc (by rw [kind_index]; simp)
    have f2 := walk_skip (ascii "!<arch>\n") ((if Spec.table ms = [] then [] else
        record [47, 47] (Spec.table ms) info extra) ++ Spec.members 0 ms) [47] c info extra
      bytes.length (Spec.table ms) false (by simp) hi hc (by rw [kind_index]; simp)
    rw [← hb', h8] at f1 f2
    rw [f1, k1]
    simp only [k2, f2, k3]

/-- The same for archives of the BSD format. -/
theorem C107_bsd_partial (ms : List (Spec.Member × Nat)) (hf : ∀ p ∈ ms, Spec.BsdFits p) :
    parseArchive (Spec.bsdArchive ms) false = .ok (ms.map fun p => (p.1.name, p.1.content)) := by
  have h8 : (ascii "!<arch>\n").length = 8 := by decide
  have := fun table => walk_bsd (Spec.bsdArchive ms) (ascii "!<arch>\n") table ms hf rfl
    ((Spec.bsdArchive ms).length + 1) (by omega)
  rw [h8] at this
  unfold parseArchive
  rw [(this []).2 none]
  exact (this []).1

/-- In a thin archive of GNU `ar` the linker finds the paths of all members, in their order. -/
theorem C107_thin (index : Option (List Nat)) (info : List Nat) (extra : Nat)
    (ms : List Spec.Outside) (hf : ∀ m ∈ ms, Spec.ThinFits m) (hi : info.length = 32)
    (hx : ∀ c, index = some c → c.length < 10 ^ 10) (ht : (Spec.thinTable ms).length < 10 ^ 10) :
    parseArchive (Spec.thinArchive index info extra ms) true =
      .ok (ms.map fun m => (m.path, [])) := by
  have h8 : (ascii "!<thin>\n").length = 8 := by decide
  have key : ∀ (pre : List Nat) (fuel : Nat), ∀ bytes : List Nat,
      bytes = pre ++ record [47, 47] (Spec.thinTable ms) info extra ++ Spec.thinMembers 0 ms →
      bytes.length - pre.length < fuel →
      findTable bytes true fuel pre.length none = .ok (some (Spec.thinTable ms)) ∧
        walk bytes true (Spec.thinTable ms) fuel pre.length =
          .ok (ms.map fun m => (m.path, [])) := by
    intro pre fuel bytes hb hfuel
    obtain ⟨n, rfl⟩ : ∃ n, fuel = n + 1 := ⟨fuel - 1, by omega⟩
    have hl := record_length [47, 47] (Spec.thinTable ms) info extra (by simp) hi ht
    have hlen := congrArg List.length hb
    simp only [List.length_append] at hlen
    have hfu : bytes.length - (pre ++ record [47, 47] (Spec.thinTable ms) info extra).length < n := by
      rw [List.length_append]; omega
    obtain ⟨iw, it⟩ := walk_thin bytes _ [] _ ms hf hb rfl (Or.inl rfl) (by simpa using ht) n hfu
    constructor
    · have hr := recordAt_record pre (Spec.thinMembers 0 ms) [47, 47] (Spec.thinTable ms) info extra
        true (Or.inr (by rw [kind_table]; simp)) (by simp) hi ht
      have hs := slice_content pre (Spec.thinMembers 0 ms) [47, 47] (Spec.thinTable ms) info extra
        (by simp) hi ht
      rw [← hb] at hr hs
      rw [findTable, if_pos (by omega), hr]
      simp only [kind_table, Option.isSome_none, Bool.false_eq_true, if_false, if_true, hs]
      rw [← List.length_append]
      exact it _
    · have hw := walk_skip pre (Spec.thinMembers 0 ms) [47, 47] (Spec.thinTable ms) info extra n
        (Spec.thinTable ms) true (by simp) hi ht (by rw [kind_table]; simp)
      rw [← hb] at hw
      rw [hw]
      exact iw
  unfold parseArchive
  generalize hb : Spec.thinArchive index info extra ms = bytes
  rcases index with _ | c
  · have hb' : bytes = ascii "!<thin>\n" ++ record [47, 47] (Spec.thinTable ms) info extra ++
        Spec.thinMembers 0 ms := by
      rw [← hb]; simp [Spec.thinArchive]
    obtain ⟨k1, k2⟩ := key _ (bytes.length + 1) bytes hb' (by omega)
    rw [h8] at k1 k2
    rw [k1]
    exact k2
  · have hc := hx c rfl
    have hb' : bytes = (ascii "!<thin>\n" ++ record [47] c info extra) ++
        record [47, 47] (Spec.thinTable ms) info extra ++ Spec.thinMembers 0 ms := by
      rw [← hb]; simp [Spec.thinArchive]
    have hl := record_length [47] c info extra (by simp) hi hc
    have hlen := congrArg List.length hb'
    simp only [List.length_append] at hlen
    obtain ⟨k1, k2⟩ := key _ bytes.length bytes hb' (by simp only [List.length_append]; omega)
    have f1 := findTable_step (ascii "!<thin>\n") (record [47, 47] (Spec.thinTable ms) info extra ++
        Spec.thinMembers 0 ms) [47] c info extra bytes.length none true
      (Or.inr (by rw [kind_index]; simp)) (by simp) hi hc (by rw [kind_index]; simp)
    have f2 := walk_skip (ascii "!<thin>\n") (record [47, 47] (Spec.thinTable ms) info extra ++
        Spec.thinMembers 0 ms) [47] c info extra bytes.length (Spec.thinTable ms) true (by simp) hi hc
      (by rw [kind_index]; simp)
    rw [← List.append_assoc, ← hb', h8] at f1 f2
    rw [f1, k1]
    simp only [Option.getD_some, f2, k2]

/-- A relative path of a thin archive is taken from the directory the archive is in: `dir/lib.a` or
`dir\\lib.a` and `x.o` give `dir/x.o` or `dir\\x.o`; an absolute path is kept; and if the archive is
named without a directory, the path is kept too. -/
theorem C107_path (name : List Nat) :
    (Spec.Absolute name → ∀ archive, resolvePath archive name = name) ∧
    (¬ Spec.Absolute name →
      (∀ file, 47 ∉ file → 92 ∉ file → resolvePath file name = name) ∧
      ∀ dir sep file, sep = 47 ∨ sep = 92 → 47 ∉ file → 92 ∉ file →
        resolvePath (dir ++ sep :: file) name = dir ++ sep :: name) := by
  constructor
  · intro h archive
    rw [resolvePath, if_pos ((pathIsAbsolute_iff name).mpr h)]
  · intro h
    have hn : ¬ pathIsAbsolute name = true := fun x => h ((pathIsAbsolute_iff name).mp x)
    constructor
    · intro file h1 h2
      rw [resolvePath, if_neg hn, strrchr_none _ _ h1, strrchr_none _ _ h2]
    · intro dir sep file hs h1 h2
      rw [resolvePath, if_neg hn]
      have ht : (dir ++ sep :: file).take (dir.length + 1) = dir ++ [sep] := by
        rw [show dir ++ sep :: file = (dir ++ [sep]) ++ file by simp,
          List.take_append_of_le_length (by simp), List.take_of_length_le (by simp)]
      rcases hs with rfl | rfl
      · rw [strrchr_last _ _ _ h1]
        rcases hb : strrchr (dir ++ 47 :: file) 92 with _ | b
        · simp [ht]
        · have := strrchr_before dir (47 :: file) 92 (by simp [h2]) b hb
          simp only
          rw [if_neg (by omega)]
          simp [ht]
      · rw [strrchr_last _ _ _ h2]
        rcases hb : strrchr (dir ++ 92 :: file) 47 with _ | a
        · simp [ht]
        · have := strrchr_before dir (92 :: file) 47 (by simp [h1]) a hb
          simp only
          rw [if_pos (by omega)]
          simp [ht]

/-- Whatever the bytes of the file are, nothing outside it is read and the walk ends: either the
archive is refused with a message, or every member has a name that is not empty and has no zero byte,
and its content is a part of the file. -/
theorem C107_inside (bytes : List Nat) (thin : Bool) :
    match parseArchive bytes thin with
    | .error e => e ≠ .fault ∧ e ≠ .endless
    | .ok out => ∀ p ∈ out, p.1 ≠ [] ∧ 0 ∉ p.1 ∧ p.2 <:+: bytes := by
  unfold parseArchive
  rcases h : findTable bytes thin (bytes.length + 1) 8 none with e | t
  · have := findTable_spec bytes thin (bytes.length + 1) 8 none (by omega) e h
    simp only [Bad, not_or] at this ⊢
    exact ⟨this.1, this.2.1⟩
  · simp only
    have := walk_spec bytes thin (t.getD []) (bytes.length + 1) 8 (by omega)
    rcases hw : walk bytes thin (t.getD []) (bytes.length + 1) 8 with e | out
    · rw [hw] at this
      simp only [Bad, not_or] at this ⊢
      exact ⟨this.1, this.2.1⟩
    · rw [hw] at this; exact this

/-! ## Cases that meet the hypotheses -/

/-- The middle of a header: date, owner, group and mode. -/
def info0 : List Nat := ascii "0           0     0     100644  "

/-- A member with a short name and a content of odd size. -/
def m1 : Spec.Member := ⟨ascii "a.o", [1, 2, 3], info0, 10⟩

/-- Members with long names. -/
def m2 : Spec.Member := ⟨ascii "a_rather_long_name.o", [4, 5], info0, 10⟩
def m3 : Spec.Member := ⟨ascii "another long name.o", [], info0, 10⟩

example : ∀ m ∈ [m1, m2, m3], Spec.Fits m := by
  intro m hm
  rcases List.mem_cons.mp hm with rfl | hm
  · exact ⟨⟨by decide, by decide, by decide, by decide⟩, by decide, by decide, by decide, by decide⟩
  rcases List.mem_cons.mp hm with rfl | hm
  · exact ⟨⟨by decide, by decide, by decide, by decide⟩, by decide, by decide, by decide, by decide⟩
  rcases List.mem_singleton.mp hm with rfl
  exact ⟨⟨by decide, by decide, by decide, by decide⟩, by decide, by decide, by decide, by decide⟩

example : info0.length = 32 ∧ (Spec.table [m1, m2, m3]).length = 43 := by decide

example : ∀ p ∈ [(m1, 1), (m2, 0)], Spec.BsdFits p := by
  intro p hp
  rcases List.mem_cons.mp hp with rfl | hp
  · exact ⟨by decide, by decide, by decide, by decide⟩
  rcases List.mem_singleton.mp hp with rfl
  exact ⟨by decide, by decide, by decide, by decide⟩

example : ∀ m ∈ [(⟨ascii "obj/a.o", 12345, info0⟩ : Spec.Outside), ⟨ascii "b.o", 0, info0⟩],
    Spec.ThinFits m := by
  intro m hm
  rcases List.mem_cons.mp hm with rfl | hm
  · exact ⟨by decide, by decide, by decide, by decide, by decide⟩
  rcases List.mem_singleton.mp hm with rfl
  exact ⟨by decide, by decide, by decide, by decide, by decide⟩

example : resolvePath (ascii "out/lib/liba.a") (ascii "x.o") = ascii "out/lib/x.o" ∧
    resolvePath (ascii "out/lib/liba.a") (ascii "/x.o") = ascii "/x.o" := by decide

/-! ## Where it does not hold -/

deriving instance DecidableEq for Except

/-- In an archive of GNU `ar`, a member named `#1` makes the linker refuse the archive: its field
`#1/` is taken as a name of the BSD format. -/
theorem C107_hash_counterexample :
    Spec.GoodName (ascii "#1") ∧
      parseArchive (Spec.archive none info0 10 [⟨ascii "#1", [1, 2], info0, 10⟩]) false =
        .error .invalidSize := by
  exact ⟨⟨by decide, by decide, by decide, by decide⟩, by decide +kernel⟩

/-- A member with a short name that begins with `__.SYMDEF` is left out without a message. -/
theorem C107_symdef_counterexample :
    Spec.GoodName (ascii "__.SYMDEF.o") ∧
      parseArchive (Spec.archive none info0 10 [⟨ascii "__.SYMDEF.o", [1, 2], info0, 10⟩]) false =
        .ok [] := by
  exact ⟨⟨by decide, by decide, by decide, by decide⟩, by decide +kernel⟩

/-- The index of symbols of an archive of the BSD format, `__.SYMDEF SORTED`, which stands like a long
name after its header, is taken as a member. -/
theorem C107_index_counterexample :
    parseArchive (Spec.bsdArchive [(⟨ascii "__.SYMDEF SORTED", [0, 0], info0, 10⟩, 4), (m2, 0)]) false =
      .ok [(ascii "__.SYMDEF SORTED", [0, 0]), (m2.name, m2.content)] := by
  decide +kernel

end Nature.Archive
