/-!
# Static libraries

The specification side of C107: the layout of an archive of object files as GNU `ar` writes it
(the System V format).  It does not mention the model.  A byte is a natural number.

An archive is the text `!<arch>\n` followed by records.  A record is a header of 60 bytes — a name
in 16 bytes, 32 bytes with date, owner and mode, the size of the content in 10 decimal digits, all
filled with spaces, and the two bytes "`\n" — followed by the content and, if its size is odd,
by one more byte.  The record `/` is the index of symbols.  A name of up to 15 bytes
stands in the header with a `/` after it; longer names stand in the content of the record `//`,
each followed by `/\n`, and the header has `/` and the position there.
-/

namespace Nature.Archive.Spec

/-- The characters of an ASCII text. -/
def ascii (s : String) : List Nat := s.toList.map Char.toNat

/-- A number in decimal digits. -/
def dec (n : Nat) : List Nat :=
  if n < 10 then [48 + n] else dec (n / 10) ++ [48 + n % 10]

/-- A text filled with spaces up to a width. -/
def fill (width : Nat) (s : List Nat) : List Nat := s ++ List.replicate (width - s.length) 32

/-- What stands in a file of an archive: name, content, and the parts that do not matter here: the
32 bytes in the middle of the header and the byte after a content of odd size. -/
structure Member where
  name : List Nat
  content : List Nat
  info : List Nat
  extra : Nat

/-- One record. -/
def record (name content info : List Nat) (extra : Nat) : List Nat :=
  fill 16 name ++ info ++ fill 10 (dec content.length) ++ [96, 10] ++ content ++
    (if content.length % 2 = 1 then [extra] else [])

/-- The table of the long names. -/
def table : List Member → List Nat
  | [] => []
  | m :: ms => (if m.name.length ≤ 15 then [] else m.name ++ [47, 10]) ++ table ms

/-- The records of the members; `pos` is the position of the next long name in the table. -/
def members (pos : Nat) : List Member → List Nat
  | [] => []
  | m :: ms =>
    if m.name.length ≤ 15 then
      record (m.name ++ [47]) m.content m.info m.extra ++ members pos ms
    else
      record (47 :: dec pos) m.content m.info m.extra ++ members (pos + m.name.length + 2) ms

/-- The archive of some members; `index` is what the index of symbols holds, if there is one. -/
def archive (index : Option (List Nat)) (info : List Nat) (extra : Nat) (ms : List Member) :
    List Nat :=
  ascii "!<arch>\n" ++
    (match index with
      | some content => record [47] content info extra
      | none => []) ++
    (if table ms = [] then [] else record [47, 47] (table ms) info extra) ++
    members 0 ms

/-- Names that files may have in an archive: not empty, and without `/`, newline and zero bytes. -/
def GoodName (name : List Nat) : Prop := name ≠ [] ∧ 47 ∉ name ∧ 10 ∉ name ∧ 0 ∉ name

/-- What a member needs to be written in this format: a good name, 32 bytes in the middle of the
header, and a size of at most 10 digits.  Two kinds of names are left out because they are also
used by the other format, that of BSD: the name `#1`, and short names that begin with `__.SYMDEF`. -/
def Fits (m : Member) : Prop :=
  GoodName m.name ∧ m.info.length = 32 ∧ m.content.length < 10 ^ 10 ∧
    m.name ≠ ascii "#1" ∧ (m.name.length ≤ 15 → ¬ ascii "__.SYMDEF" <+: m.name)

/-- The format of BSD: the header has `#1/` and the size of the name, and the name stands, with zero
bytes after it, before the content. -/
def bsdRecord (m : Member) (zeros : Nat) : List Nat :=
  record (ascii "#1/" ++ dec (m.name.length + zeros))
    (m.name ++ List.replicate zeros 0 ++ m.content) m.info m.extra

/-- An archive of that format; every member comes with the number of zero bytes after its name. -/
def bsdArchive (ms : List (Member × Nat)) : List Nat :=
  ascii "!<arch>\n" ++ ms.flatMap fun p => bsdRecord p.1 p.2

/-- What a member needs in the BSD format: a name that is not empty and has no zero byte. -/
def BsdFits (p : Member × Nat) : Prop :=
  p.1.name ≠ [] ∧ 0 ∉ p.1.name ∧ p.1.info.length = 32 ∧
    p.1.name.length + p.2 + p.1.content.length < 10 ^ 10

/-- A member of a thin archive of GNU `ar`: the path of a file outside the archive, and its size. -/
structure Outside where
  path : List Nat
  size : Nat
  info : List Nat

/-- In a thin archive all paths stand in the table of names. -/
def thinTable : List Outside → List Nat
  | [] => []
  | m :: ms => m.path ++ [47, 10] ++ thinTable ms

/-- And the records of the members are only headers. -/
def thinMembers (pos : Nat) : List Outside → List Nat
  | [] => []
  | m :: ms => (fill 16 (47 :: dec pos) ++ m.info ++ fill 10 (dec m.size) ++ [96, 10]) ++
      thinMembers (pos + m.path.length + 2) ms

/-- A thin archive; the index of symbols and the table of names stand in it as in other archives. -/
def thinArchive (index : Option (List Nat)) (info : List Nat) (extra : Nat) (ms : List Outside) :
    List Nat :=
  ascii "!<thin>\n" ++
    (match index with
      | some content => record [47] content info extra
      | none => []) ++
    record [47, 47] (thinTable ms) info extra ++ thinMembers 0 ms

/-- What a member of a thin archive needs. -/
def ThinFits (m : Outside) : Prop :=
  m.path ≠ [] ∧ 10 ∉ m.path ∧ 0 ∉ m.path ∧ m.info.length = 32 ∧ m.size < 10 ^ 10

/-- A path that does not start at the directory it is used in: it begins with `/` or `\`, or with the
letter of a drive, `:` and `/` or `\`. -/
def Absolute (path : List Nat) : Prop :=
  (∃ s, path = 47 :: s ∨ path = 92 :: s) ∨
    ∃ d s, (65 ≤ d ∧ d ≤ 90 ∨ 97 ≤ d ∧ d ≤ 122) ∧
      (path = d :: 58 :: 47 :: s ∨ path = d :: 58 :: 92 :: s)

end Nature.Archive.Spec
